import Verif.Model.FortranLines
import Verif.Spec.FortranLines
import Verif.Lemmas.FortranWriter
import Verif.Props.FortranStmts
/-!
# C56: continuation lines
-/
namespace Ccpp.FL
open FLS (Ctx lineText Part LineOut passed analyse continued joined)

theorem blank_eq : FLS.blank = isWs := by
  funext ch
  simp only [FLS.blank, isWs, List.mem_cons, List.not_mem_nil, or_false]
  rw [Bool.eq_iff_iff]
  simp [or_assoc]

theorem dropBlank (l : Str) : l.dropWhile FLS.blank = lstrip l := by rw [blank_eq]; rfl

theorem lstrip_nil_iff (l : Str) : lstrip l = [] ↔ ∀ ch ∈ l, isWs ch = true := by
  unfold lstrip
  induction l with
  | nil => simp
  | cons a l ih => rw [List.dropWhile_cons]; split <;> simp_all

theorem strip_nil_iff (l : Str) : strip l = [] ↔ lstrip l = [] := by
  rw [lstrip_nil_iff]
  unfold strip
  rw [lstrip_nil_iff]
  constructor
  · intro h
    have h0 : rstrip l = [] := by
      rw [List.eq_nil_iff_forall_not_mem]
      intro ch hm
      cases hl : (rstrip l).getLast? with
      | none => rw [List.getLast?_eq_none_iff] at hl; rw [hl] at hm; simp at hm
      | some z =>
        obtain ⟨y, hy⟩ := FW.getLast?_some hl
        have hz : isWs z = true := h z (by rw [hy]; simp)
        unfold rstrip at hy
        have hy' : l.reverse.dropWhile isWs = z :: y.reverse := by
          have := congrArg List.reverse hy; simpa using this
        have := FW.lstrip_head_ne hy'
        rw [hz] at this; cases this
    unfold rstrip at h0
    have h1 : l.reverse.dropWhile isWs = [] := by simpa using h0
    have h2 := (lstrip_nil_iff l.reverse).1 h1
    intro ch hm; exact h2 ch (by simpa using hm)
  · intro h ch hm
    refine h ch ?_
    unfold rstrip at hm
    rw [List.mem_reverse] at hm
    simpa using (List.dropWhile_sublist _).mem hm

/-! ### One line -/

theorem lineText_none {c : Ctx} {l t : Str} (h : lineText c l = some (t, none)) : t = l := by
  induction l generalizing c t with
  | nil => cases c <;> simp [lineText] at h <;> exact h.symm ▸ rfl
  | cons ch r ih =>
    cases c with
    | comment => simp [lineText] at h; exact h.symm
    | code =>
      simp only [lineText] at h
      split at h
      · simp at h; exact h.symm
      split at h
      · split at h <;> simp at h
      · cases hr : lineText (Ctx.code.step ch) r with
        | none => simp [hr] at h
        | some p => obtain ⟨p1, p2⟩ := p; simp [hr] at h; obtain ⟨rfl, rfl⟩ := h; rw [ih hr]
    | lit d =>
      simp only [lineText] at h
      split at h
      · simp at h
      · cases hr : lineText ((Ctx.lit d).step ch) r with
        | none => simp [hr] at h
        | some p => obtain ⟨p1, p2⟩ := p; simp [hr] at h; obtain ⟨rfl, rfl⟩ := h; rw [ih hr]

/-- The text of a continued line is what precedes the mark. -/
theorem lineText_some {c c' : Ctx} {l t : Str} (h : lineText c l = some (t, some c')) :
    (∃ r, l = t ++ '&' :: r) ∧ c' = t.foldl Ctx.step c ∧ c' ≠ .comment := by
  induction l generalizing c t with
  | nil => cases c <;> simp [lineText] at h
  | cons ch r ih =>
    cases c with
    | comment => simp [lineText] at h
    | code =>
      simp only [lineText] at h
      split at h
      · simp at h
      split at h
      · next h2 =>
        split at h
        · simp at h; obtain ⟨rfl, rfl⟩ := h; exact ⟨⟨r, by simp [h2]⟩, rfl, by decide⟩
        · simp at h
      · cases hr : lineText (Ctx.code.step ch) r with
        | none => simp [hr] at h
        | some p =>
          obtain ⟨p1, p2⟩ := p; simp [hr] at h; obtain ⟨rfl, rfl⟩ := h
          obtain ⟨⟨r', hr'⟩, h2, h3⟩ := ih hr
          exact ⟨⟨r', by simp [hr']⟩, by simpa using h2, h3⟩
    | lit d =>
      simp only [lineText] at h
      split at h
      · next h2 => simp at h; obtain ⟨rfl, rfl⟩ := h; exact ⟨⟨r, by simp [h2.1]⟩, rfl, by simp⟩
      · cases hr : lineText ((Ctx.lit d).step ch) r with
        | none => simp [hr] at h
        | some p =>
          obtain ⟨p1, p2⟩ := p; simp [hr] at h; obtain ⟨rfl, rfl⟩ := h
          obtain ⟨⟨r', hr'⟩, h2, h3⟩ := ih hr
          exact ⟨⟨r', by simp [hr']⟩, by simpa using h2, h3⟩

theorem scanLoop_after (r : Str) (i co : Nat) (h : continueRe r = true) :
    ∃ cm, scanLoop r i .out (some co) = some (some co, .out, cm) := by
  induction r generalizing i with
  | nil => exact ⟨none, rfl⟩
  | cons ch r ih =>
    by_cases hw : isWs ch = true
    · have : continueRe r = true := by simpa [continueRe, lstrip, hw] using h
      obtain ⟨cm, hcm⟩ := ih (i + 1) this
      exact ⟨cm, by simp [scanLoop, hw, hcm]⟩
    · have : ch = '!' := by simpa [continueRe, lstrip, hw] using h
      subst this
      exact ⟨some i, by simp [scanLoop, isWs]⟩

/-- The value of the scan expected for a value of `lineText`. -/
def ScanIs (i : Nat) : Option (Str × Option Ctx) → Option (Option Nat × Q × Option Nat) → Prop
  | none, res => res = none ∨ ∃ q cm, res = some (none, q, cm) ∧ q ≠ .out
  | some (_, none), res => ∃ cm, res = some (none, .out, cm)
  | some (t, some c), res => ∃ q cm, res = some (some (i + t.length), q, cm) ∧ q.ctx = c

theorem ScanIs.cons {i : Nat} {ch : Char} {x : Option (Str × Option Ctx)}
    {res : Option (Option Nat × Q × Option Nat)} (h : ScanIs (i + 1) x res) :
    ScanIs i (x.map fun p => (ch :: p.1, p.2)) res := by
  match x, h with
  | none, h => exact h
  | some (_, none), h => exact h
  | some (t, some c), ⟨q, cm, h, hq⟩ =>
    exact ⟨q, cm, by rw [h]; simp; omega, hq⟩

theorem continueRe_eq (r : Str) :
    (r.dropWhile FLS.blank = [] ∨ (r.dropWhile FLS.blank).head? = some '!') ↔ continueRe r = true := by
  rw [dropBlank]
  unfold continueRe
  cases lstrip r with
  | nil => simp
  | cons ch t => simp

theorem scanLoop_spec (l : Str) (i : Nat) (q : Q) :
    ScanIs i (lineText q.ctx l) (scanLoop l i q none) := by
  induction l generalizing i q with
  | nil =>
    cases q with
    | out => exact ⟨none, rfl⟩
    | sq => exact Or.inr ⟨.sq, none, rfl, by decide⟩
    | dq => exact Or.inr ⟨.dq, none, rfl, by decide⟩
  | cons ch r ih =>
    cases q with
    | out =>
      simp only [Q.ctx, lineText, scanLoop]
      by_cases h1 : ch = '!'
      · subst h1
        rw [if_pos rfl, if_neg (by decide)]
        simp only [if_neg (show ¬ ('!' = '\'') by decide), if_neg (show ¬ ('!' = '"') by decide), if_pos]
        exact ⟨_, rfl⟩
      by_cases h2 : ch = '&'
      · subst h2
        rw [if_neg (by decide : ¬ ('&' = '!')), if_pos rfl, if_neg (by decide : ¬ (isWs '&' = true))]
        simp only [if_neg (show ¬ ('&' = '\'') by decide), if_neg (show ¬ ('&' = '"') by decide),
          if_neg (show ¬ ('&' = '!') by decide), if_pos]
        by_cases h3 : continueRe r = true
        · rw [if_pos ((continueRe_eq r).2 h3), if_pos h3]
          obtain ⟨cm, hcm⟩ := scanLoop_after r (i + 1) i h3
          exact ⟨.out, cm, hcm, rfl⟩
        · rw [if_neg (fun h => h3 ((continueRe_eq r).1 h)), if_neg h3]
          exact Or.inl rfl
      · rw [if_neg h1, if_neg h2]
        by_cases h3 : ch = '\''
        · subst h3
          rw [if_neg (by decide)]
          exact (ih (i + 1) .sq).cons
        by_cases h4 : ch = '"'
        · subst h4
          rw [if_neg (by decide)]
          exact (ih (i + 1) .dq).cons
        · have hs : Ctx.code.step ch = .code := by simp [Ctx.step, h1, h3, h4]
          rw [hs]
          have := (ih (i + 1) .out).cons (ch := ch)
          simp only [Q.ctx] at this
          split <;> simpa [h1, h2, h3, h4] using this
    | sq =>
      simp only [Q.ctx, lineText, scanLoop]
      by_cases h1 : ch = '&' ∧ r = []
      · obtain ⟨rfl, rfl⟩ := h1
        exact ⟨.sq, none, rfl, rfl⟩
      · rw [if_neg h1]
        by_cases h2 : ch = '\''
        · subst h2
          rw [if_neg (by decide)]
          exact (ih (i + 1) .out).cons
        · have hs : (Ctx.lit '\'').step ch = .lit '\'' := by simp [Ctx.step, h2]
          rw [hs]
          have := (ih (i + 1) .sq).cons (ch := ch)
          simp only [Q.ctx] at this
          by_cases hw : isWs ch = true
          · rw [if_pos hw]; exact this
          · rw [if_neg hw, if_neg h2, if_neg h1]; exact this
    | dq =>
      simp only [Q.ctx, lineText, scanLoop]
      by_cases h1 : ch = '&' ∧ r = []
      · obtain ⟨rfl, rfl⟩ := h1
        exact ⟨.dq, none, rfl, rfl⟩
      · rw [if_neg h1]
        by_cases h2 : ch = '"'
        · subst h2
          rw [if_neg (by decide)]
          exact (ih (i + 1) .out).cons
        · have hs : (Ctx.lit '"').step ch = .lit '"' := by simp [Ctx.step, h2]
          rw [hs]
          have := (ih (i + 1) .dq).cons (ch := ch)
          simp only [Q.ctx] at this
          by_cases hw : isWs ch = true
          · rw [if_pos hw]; exact this
          · rw [if_neg hw, if_neg h2, if_neg h1]; exact this

/-! ### The whole file -/

/-- The text the code puts together: white space before the first continuation mark is dropped
(outside character context). -/
def codeText (first : Str) (ps : List Part) : Str :=
  (if (ps.head?.map (·.ctx)) = some .code then rstrip first else first)
    ++ (ps.map (·.text)).flatten

def render : LineOut → Str
  | .same l => l
  | .empty => []
  | .stmt f ps => codeText f ps

theorem continued_head {c : Ctx} {ls : List (Bool × Str)} {ps : List Part} {os : List LineOut}
    (h : continued c ls = some (ps, os)) : ps = [] ∨ ps.head?.map (·.ctx) = some c := by
  induction ls generalizing c ps os with
  | nil => simp [continued] at h; exact Or.inl h.1
  | cons x ls ih =>
    obtain ⟨vis, l⟩ := x
    simp only [continued] at h
    split at h
    · cases hc : continued c ls with
      | none => simp [hc] at h
      | some p => simp [hc] at h; rw [← h.1]; exact ih hc
    · split at h
      · simp at h
      · cases ha : analyse ls with
        | none => simp [ha] at h
        | some p => simp [ha] at h; rw [← h.1]; simp
      · next t c' _ =>
        cases hc : continued c' ls with
        | none => simp [hc] at h
        | some p => simp [hc] at h; rw [← h.1]; simp

theorem readStep_passed {s : RS} {i : Nat} {vis : Bool} {l : Str} {o : LineOut}
    (h : passed vis l = some o) (hl : s.out[i]? = some l) :
    readStep s i vis l = some { s with out := s.out.set i (render o) } := by
  unfold passed at h
  rw [dropBlank] at h
  have hset : s.out.set i l = s.out := by
    obtain ⟨hlt, hg⟩ := List.getElem?_eq_some_iff.1 hl
    rw [← hg]; exact List.set_getElem_self hlt
  unfold readStep
  split at h
  · next h0 =>
    rw [if_pos ((strip_nil_iff l).2 h0)]
    simp at h; subst h; simp [render, hset]
  · next ch r h0 =>
    rw [if_neg (fun hs => by rw [(strip_nil_iff l).1 hs] at h0; cases h0), h0]
    simp only [List.head?_cons, Option.some.injEq]
    split at h
    · next h1 => rw [if_pos h1]; simp at h; subst h; simp [render, hset]
    · next h1 =>
      rw [if_neg h1]
      split at h
      · simp at h
      · next h2 => simp at h; subst h; simp [h2, render]

theorem scanFree_spec {l : Str} {ic : Bool} {q : Q} {ch : Char} {r : Str} (h0 : lstrip l = ch :: r)
    (hq : q = .out ∨ ic = true) (hic : ch = '&' → ic = true) :
    ∃ (ci : Option Nat) (off : Nat), off = (ci.map (· + 1)).getD 0 ∧
      l.drop off = (if ch = '&' then r else l) ∧ off ≤ l.length ∧ (off = 0 → ch ≠ '&') ∧
      (lineText q.ctx (if ch = '&' then r else l) = none → scanFree l ic q = none) ∧
      (∀ t, lineText q.ctx (if ch = '&' then r else l) = some (t, none) →
        ∃ cm, scanFree l ic q = some ⟨ci, none, .out, cm⟩) ∧
      (∀ t c, lineText q.ctx (if ch = '&' then r else l) = some (t, some c) →
        ∃ q' cm, scanFree l ic q = some ⟨ci, some (off + t.length), q', cm⟩ ∧ q'.ctx = c) := by
  have hguard : ¬ (q ≠ .out ∧ ic = false) := by
    rintro ⟨h1, h2⟩; rcases hq with h | h
    · exact h1 h
    · rw [h] at h2; cases h2
  by_cases hch : ch = '&'
  · subst hch
    have hict := hic rfl
    obtain ⟨pre, hpre, -⟩ := FW.dropWhile_append_ws isWs l
    have hl : l = pre ++ '&' :: r := by rw [← h0]; exact hpre
    have hlen : l.length - (r.length + 1) = pre.length := by rw [hl]; simp
    have hdrop : l.drop (pre.length + 1) = r := by
      rw [hl, List.drop_append]; simp
    have hs := scanLoop_spec r (pre.length + 1) q
    refine ⟨some pre.length, pre.length + 1, rfl, by rw [hdrop]; simp, by rw [hl]; simp,
      by simp, ?_, ?_, ?_⟩
    all_goals
      simp only [if_pos, scanFree, h0, hict, Bool.true_eq_false, and_false, if_neg, hlen, hdrop,
        not_false_eq_true, not_true_eq_false, if_false]
    · intro h; rw [h] at hs
      rcases hs with hs | ⟨q', cm, hs, hne⟩
      · rw [hs]
      · rw [hs]; simp [hne]
    · intro t h; rw [h] at hs
      obtain ⟨cm, hs⟩ := hs
      exact ⟨cm, by rw [hs]; simp⟩
    · intro t c h; rw [h] at hs
      obtain ⟨q', cm, hs, hc⟩ := hs
      exact ⟨q', cm, by rw [hs]; simp, hc⟩
  · have hs := scanLoop_spec l 0 q
    refine ⟨none, 0, rfl, by simp [hch], by omega, fun _ => hch, ?_, ?_, ?_⟩
    all_goals
      simp only [if_neg hch, scanFree, if_neg hguard, h0]
    · intro h; rw [h] at hs
      rcases hs with hs | ⟨q', cm, hs, hne⟩
      · rw [hs]
      · rw [hs]; simp [hne]
    · intro t h; rw [h] at hs
      obtain ⟨cm, hs⟩ := hs
      exact ⟨cm, by rw [hs]; simp⟩
    · intro t c h; rw [h] at hs
      obtain ⟨q', cm, hs, hc⟩ := hs
      exact ⟨q', cm, by rw [hs]; simp, hc⟩

theorem passed_none {vis : Bool} {l : Str} (h : passed vis l = none) :
    vis = true ∧ ∃ ch r, lstrip l = ch :: r ∧ ch ≠ '!' := by
  unfold passed at h
  rw [dropBlank] at h
  split at h
  · cases h
  · next ch r h0 =>
    split at h
    · cases h
    · next h1 =>
      split at h
      · next h2 => exact ⟨h2, ch, r, h0, h1⟩
      · cases h

theorem head_amp {l : Str} {ch : Char} {r : Str} (h0 : lstrip l = ch :: r) :
    ((l.dropWhile FLS.blank).head? = some '&') = (ch = '&') ∧
      (l.dropWhile FLS.blank).tail = r := by
  rw [dropBlank, h0]; simp

theorem lineText_first {c c' : Ctx} {l t : Str} {ch : Char} {r : Str} (h0 : lstrip l = ch :: r)
    (hch : ch ≠ '&') (h : lineText c l = some (t, some c')) : t ≠ [] := by
  rintro rfl
  obtain ⟨⟨r', hr⟩, -⟩ := lineText_some h
  rw [hr] at h0
  have : lstrip ('&' :: r') = '&' :: r' := FW.lstrip_cons_of (by decide)
  simp only [List.nil_append] at h0
  rw [this] at h0
  exact hch (by simpa using congrArg List.head? h0.symm)

theorem set_at {α : Type} (d : List α) (x y : α) (r : List α) : (d ++ x :: r).set d.length y = d ++ y :: r := by
  rw [List.set_append_right _ _ (Nat.le_refl _)]; simp

theorem set_at2 {α : Type} (d : List α) (x y : α) (m : List α) (z w : α) (r : List α) :
    ((d ++ x :: (m ++ z :: r)).set d.length y).set (d.length + 1 + m.length) w
      = d ++ y :: (m ++ w :: r) := by
  rw [set_at, show d.length + 1 + m.length = (d ++ y :: m).length by simp; omega,
    show d ++ y :: (m ++ z :: r) = (d ++ y :: m) ++ z :: r by simp, set_at]; simp

theorem readLoop_spec (ls : List (Bool × Str)) :
    (∀ (done : List Str) (k : Nat),
      (readLoop ⟨done ++ ls.map (·.2), none, .out, none, k⟩ done.length ls).map (·.out)
        = (analyse ls).map fun os => done ++ os.map render) ∧
    (∀ (d : List Str) (x : Str) (m : List Str) (cc : Nat) (q : Q) (p : Str),
      (readLoop ⟨d ++ x :: (m ++ ls.map (·.2)), some cc, q, some p, d.length⟩
        (d.length + 1 + m.length) ls).map (·.out)
        = (continued q.ctx ls).map fun r =>
            d ++ (if r.1 = [] then x else p ++ (r.1.map (·.text)).flatten)
              :: (m ++ r.2.map render)) := by
  induction ls with
  | nil => simp [readLoop, analyse, continued]
  | cons a ls ih =>
    obtain ⟨vis, l⟩ := a
    obtain ⟨ih1, ih2⟩ := ih
    constructor
    · intro done k
      simp only [readLoop, analyse, List.map_cons]
      cases hp : passed vis l with
      | some o =>
        rw [readStep_passed hp (by simp)]
        simp only [set_at]
        have := ih1 (done ++ [render o]) k
        simp only [List.append_assoc, List.cons_append, List.nil_append, List.length_append,
          List.length_cons, List.length_nil, Nat.zero_add] at this
        rw [this, Option.map_map]
        rfl
      | none =>
        obtain ⟨rfl, ch, r, h0, hch⟩ := passed_none hp
        obtain ⟨ha1, ha2⟩ := head_amp h0
        simp only [ha1]
        have hs0 : ¬ strip l = [] := fun h => by rw [(strip_nil_iff l).1 h] at h0; cases h0
        by_cases hamp : ch = '&'
        · subst hamp
          have : scanFree l false .out = none := by simp [scanFree, h0]
          simp [readStep, hs0, h0, this]
        · rw [if_neg hamp]
          obtain ⟨ci, off, ho, hd, hle, h00, hn, h1, h2⟩ :=
            scanFree_spec (ic := false) (q := .out) h0 (Or.inl rfl) (fun h => absurd h hamp)
          rw [if_neg hamp] at hd hn h1 h2
          rw [show Q.out.ctx = .code from rfl] at hn h1 h2
          cases hlt : lineText .code l with
          | none => simp [readStep, hs0, h0, hch, hn hlt]
          | some v =>
            obtain ⟨t, oc⟩ := v
            cases oc with
            | none =>
              obtain ⟨cm, hsc⟩ := h1 t hlt
              simp only [readStep, hs0, h0, hch, if_false, List.head?_cons, Option.some.injEq,
                Option.isSome_none, hsc, Bool.true_eq_false]
              have := ih1 (done ++ [l]) k
              simp only [List.append_assoc, List.cons_append, List.nil_append, List.length_append,
                List.length_cons, List.length_nil, Nat.zero_add] at this
              rw [this, Option.map_map]
              rfl
            | some c =>
              obtain ⟨q', cm, hsc, hqc⟩ := h2 t c hlt
              have ho0 : off = 0 := by
                have := hsc
                unfold scanFree at this
                simp only [h0, if_neg hamp] at this
                subst ho
                cases ci with
                | none => rfl
                | some c0 =>
                  exfalso
                  revert this
                  simp only [ne_eq, not_true_eq_false, false_and, if_false]
                  split
                  · simp
                  · split <;> simp
              simp only [readStep, hs0, h0, hch, if_false, List.head?_cons, Option.some.injEq,
                Option.isSome_none, hsc, Bool.true_eq_false]
              have := ih2 done l [] (off + t.length) q'
                (if q' = .out then rstrip (l.take (off + t.length)) else l.take (off + t.length))
              simp only [List.nil_append, List.length_nil, Nat.add_zero] at this
              rw [this, hqc]
              have htk : l.take (off + t.length) = t := by
                obtain ⟨⟨r', hr⟩, -⟩ := lineText_some hlt
                rw [ho0, hr]; simp
              cases hcn : continued c ls with
              | none => rfl
              | some pr =>
                obtain ⟨ps, os⟩ := pr
                simp only [Option.map_some, htk]
                by_cases hps : ps = []
                · simp [hps, render]
                · have hhd := (continued_head hcn).resolve_left hps
                  have hqq : (q' = .out) ↔ c = .code := by
                    rw [← hqc]; cases q' <;> simp [Q.ctx]
                  simp only [hps, if_false, List.map_cons, render, codeText, hhd, Option.some.injEq,
                    hqq]
    · intro d x m cc q p
      simp only [readLoop, continued, List.map_cons]
      cases hp : passed vis l with
      | some o =>
        rw [readStep_passed hp (by
          rw [show d ++ x :: (m ++ l :: ls.map (·.2)) = (d ++ x :: m) ++ l :: ls.map (·.2) by simp]
          rw [List.getElem?_append_right (by simp; omega)]
          simp [show d.length + 1 + m.length - (d.length + (m.length + 1)) = 0 by omega])]
        simp only []
        rw [show d ++ x :: (m ++ l :: ls.map (·.2)) = (d ++ x :: m) ++ l :: ls.map (·.2) by simp,
          show d.length + 1 + m.length = (d ++ x :: m).length by simp; omega, set_at]
        have := ih2 d x (m ++ [render o]) cc q p
        simp only [List.append_assoc, List.cons_append, List.nil_append, List.length_append,
          List.length_cons, List.length_nil, Nat.zero_add] at this ⊢
        rw [show d.length + (m.length + 1) + 1 = d.length + 1 + (m.length + 1) by omega, this,
          Option.map_map]
        rfl
      | none =>
        obtain ⟨rfl, ch, r, h0, hch⟩ := passed_none hp
        obtain ⟨ha1, ha2⟩ := head_amp h0
        simp only [ha1, ha2]
        have hs0 : ¬ strip l = [] := fun h => by rw [(strip_nil_iff l).1 h] at h0; cases h0
        obtain ⟨ci, off, ho, hd, hle, h00, hn, h1, h2⟩ :=
          scanFree_spec (ic := true) (q := q) h0 (Or.inr rfl) (fun _ => rfl)
        cases hlt : lineText q.ctx (if ch = '&' then r else l) with
        | none => simp [readStep, hs0, h0, hch, hn hlt]
        | some v =>
          obtain ⟨t, oc⟩ := v
          cases oc with
          | none =>
            obtain ⟨cm, hsc⟩ := h1 t hlt
            have ht := lineText_none hlt
            simp only [readStep, hs0, h0, hch, if_false, List.head?_cons, Option.some.injEq,
              Option.isSome_some, hsc, Bool.true_eq_false, ← ho]
            have hsl : slice l off l.length = t := by
              unfold slice; rw [hd, ht, List.take_of_length_le]
              have := congrArg List.length hd; rw [List.length_drop] at this; omega
            rw [hsl, set_at2]
            have := ih1 (d ++ (p ++ t) :: (m ++ [[]])) 0
            simp only [List.append_assoc, List.cons_append, List.nil_append, List.length_append,
              List.length_cons, List.length_nil, Nat.zero_add] at this ⊢
            simp only [if_true]
            rw [show d.length + 1 + m.length + 1 = d.length + (m.length + 1 + 1) by omega, this,
              Option.map_map]
            congr 1; funext os; simp [render]
          | some c =>
            obtain ⟨q', cm, hsc, hqc⟩ := h2 t c hlt
            simp only [readStep, hs0, h0, hch, if_false, List.head?_cons, Option.some.injEq,
              Option.isSome_some, hsc, Bool.true_eq_false, ← ho]
            have hpos : off + t.length > 0 := by
              by_cases hamp : ch = '&'
              · by_cases h : off = 0
                · exact absurd hamp (h00 h)
                · omega
              · rw [if_neg hamp] at hlt
                have := List.length_pos_iff.2 (lineText_first h0 hamp hlt)
                omega
            have hsl : slice l off (off + t.length) = t := by
              obtain ⟨⟨r', hr⟩, -⟩ := lineText_some hlt
              unfold slice; rw [hd, hr]; simp
            simp only [if_pos hpos, hsl, set_at2, reduceCtorEq, if_false]
            have := ih2 d (p ++ t) (m ++ [[]]) (off + t.length) q' (p ++ t)
            simp only [List.append_assoc, List.cons_append, List.nil_append, List.length_append,
              List.length_cons, List.length_nil, Nat.zero_add] at this ⊢
            rw [show d.length + 1 + m.length + 1 = d.length + 1 + (m.length + 1) by omega, this,
              Option.map_map, hqc]
            congr 1; funext pr
            by_cases hpr : pr.1 = [] <;> simp [hpr, render]

/-- C56, exactly: what read_file makes of a free-form file. -/
theorem C56_exact (ls : List (Bool × Str)) :
    readFile ls = (analyse (ls.map fun p => (p.1, rstrip p.2))).map (List.map render) := by
  have := (readLoop_spec (ls.map fun p => (p.1, rstrip p.2))).1 [] 0
  simpa [readFile] using this

/-! ### Comparison with the Fortran rule -/

/-- Each part begins in the context in which the one before it ends. -/
def Chain : Ctx → List Part → Prop
  | _, [] => True
  | c, p :: ps => p.ctx = c ∧ (ps = [] ∨ (p.text.foldl Ctx.step c ≠ .comment ∧
      Chain (p.text.foldl Ctx.step c) ps))

theorem continued_chain {c : Ctx} {ls : List (Bool × Str)} {ps : List Part} {os : List LineOut}
    (h : continued c ls = some (ps, os)) : Chain c ps := by
  induction ls generalizing c ps os with
  | nil => simp [continued] at h; rw [h.1]; trivial
  | cons x ls ih =>
    obtain ⟨vis, l⟩ := x
    simp only [continued] at h
    split at h
    · cases hc : continued c ls with
      | none => simp [hc] at h
      | some p => simp [hc] at h; rw [← h.1]; exact ih hc
    · split at h
      · simp at h
      · cases ha : analyse ls with
        | none => simp [ha] at h
        | some p => simp [ha] at h; rw [← h.1]; exact ⟨rfl, Or.inl rfl⟩
      · next t c' hlt =>
        cases hc : continued c' ls with
        | none => simp [hc] at h
        | some p =>
          simp [hc] at h; rw [← h.1]
          obtain ⟨-, h2, h3⟩ := lineText_some hlt
          exact ⟨rfl, Or.inr ⟨h2 ▸ h3, h2 ▸ ih hc⟩⟩

theorem passed_not_stmt {vis : Bool} {l f : Str} {ps : List Part}
    (h : passed vis l = some (.stmt f ps)) : False := by
  unfold passed at h
  split at h
  · simp at h
  · split at h
    · simp at h
    · split at h <;> simp at h

theorem chains (ls : List (Bool × Str)) :
    (∀ os, analyse ls = some os → ∀ f ps, LineOut.stmt f ps ∈ os →
      f.foldl Ctx.step .code ≠ .comment ∧ Chain (f.foldl Ctx.step .code) ps) ∧
    (∀ c qs os, continued c ls = some (qs, os) → ∀ f ps, LineOut.stmt f ps ∈ os →
      f.foldl Ctx.step .code ≠ .comment ∧ Chain (f.foldl Ctx.step .code) ps) := by
  induction ls with
  | nil => simp [analyse, continued]
  | cons x ls ih =>
    obtain ⟨vis, l⟩ := x
    obtain ⟨ih1, ih2⟩ := ih
    constructor
    · intro os h f ps hm
      simp only [analyse] at h
      split at h
      · next o ho =>
        cases ha : analyse ls with
        | none => simp [ha] at h
        | some p =>
          simp [ha] at h; subst h
          rcases List.mem_cons.1 hm with rfl | hm
          · exact (passed_not_stmt ho).elim
          · exact ih1 p ha f ps hm
      split at h
      · simp at h
      split at h
      · simp at h
      · cases ha : analyse ls with
        | none => simp [ha] at h
        | some p =>
          simp [ha] at h; subst h
          rcases List.mem_cons.1 hm with hm | hm
          · cases hm
          · exact ih1 p ha f ps hm
      · next t c hlt =>
        cases hc : continued c ls with
        | none => simp [hc] at h
        | some p =>
          obtain ⟨qs, os'⟩ := p
          simp [hc] at h; subst h
          rcases List.mem_cons.1 hm with hm | hm
          · split at hm
            · cases hm
            · cases hm
              obtain ⟨-, h2, h3⟩ := lineText_some hlt
              exact ⟨h2 ▸ h3, h2 ▸ continued_chain hc⟩
          · exact ih2 c qs os' hc f ps hm
    · intro c qs os h f ps hm
      simp only [continued] at h
      split at h
      · next o ho =>
        cases hc : continued c ls with
        | none => simp [hc] at h
        | some p =>
          simp [hc] at h; rw [← h.2] at hm
          rcases List.mem_cons.1 hm with hm | hm
          · rw [← hm] at ho; exact (passed_not_stmt ho).elim
          · exact ih2 c p.1 p.2 hc f ps hm
      · split at h
        · simp at h
        · cases ha : analyse ls with
          | none => simp [ha] at h
          | some p =>
            simp [ha] at h; rw [← h.2] at hm
            rcases List.mem_cons.1 hm with hm | hm
            · cases hm
            · exact ih1 p ha f ps hm
        · next t c' hlt =>
          cases hc : continued c' ls with
          | none => simp [hc] at h
          | some p =>
            simp [hc] at h; rw [← h.2] at hm
            rcases List.mem_cons.1 hm with hm | hm
            · cases hm
            · exact ih2 c' p.1 p.2 hc f ps hm

/-- Helper: context and quote state of the comparison function `FW.norm`. -/
inductive Rel : Ctx → FW.Q → Prop
  | code : Rel .code .out
  | sq : Rel (.lit '\'') .sq
  | dq : Rel (.lit '"') .dq

theorem step_comment (t : Str) : t.foldl Ctx.step .comment = .comment := by
  induction t with
  | nil => rfl
  | cons a t ih => simpa [Ctx.step] using ih

theorem Rel.step {c : Ctx} {q : FW.Q} (h : Rel c q) (ch : Char) (hc : c.step ch ≠ .comment) :
    Rel (c.step ch) (q.step ch) := by
  cases h with
  | code =>
    by_cases h0 : ch = '!'
    · subst h0; exact absurd rfl hc
    by_cases h1 : ch = '\''
    · subst h1; exact .sq
    by_cases h2 : ch = '"'
    · subst h2; exact .dq
    · simp [Ctx.step, FW.Q.step, h0, h1, h2]; exact .code
  | sq => by_cases h1 : ch = '\'' <;> simp [Ctx.step, FW.Q.step, h1] <;> constructor
  | dq => by_cases h1 : ch = '"' <;> simp [Ctx.step, FW.Q.step, h1] <;> constructor

theorem Rel.fold {c : Ctx} {q : FW.Q} (h : Rel c q) (t : Str)
    (hc : t.foldl Ctx.step c ≠ .comment) : Rel (t.foldl Ctx.step c) (t.foldl FW.Q.step q) := by
  induction t generalizing c q with
  | nil => exact h
  | cons ch t ih =>
    simp only [List.foldl_cons] at hc ⊢
    refine ih (h.step ch ?_) hc
    intro h0; rw [h0, step_comment] at hc; exact hc rfl

theorem Rel.out {c : Ctx} {q : FW.Q} (h : Rel c q) (hc : c = .code) : q = .out := by
  cases h <;> first | rfl | cases hc

/-- Text that begins with white space. -/
def StartsBlank (t : Str) : Prop := ∃ b r, t = b :: r ∧ isWs b = true

/-- No white space at the end. -/
def NoTrailing (t : Str) : Prop := rstrip t = t

/-- The continuation lines are written so that dropping white space before the first `&` and the
missing line end separate no other tokens than Fortran does: outside character context a continued
line begins with white space (after its `&`, if any), or it begins with `&` and, if it is the first
one, no white space precedes the `&` before it. -/
def Separated (first : Str) (ps : List Part) : Prop :=
  (∀ p ∈ ps, p.ctx = .code → StartsBlank p.text ∨ p.amp = true) ∧
  (∀ p, ps.head? = some p → p.ctx = .code → StartsBlank p.text ∨ NoTrailing first)

theorem ws_first {st : FW.LexSt} (hq : st.q = .out) {w t : Str} (hw : ∀ ch ∈ w, isWs ch = true)
    (ht : StartsBlank t) : FW.normFrom st (w ++ t) = FW.normFrom st t ∧
      st.after (w ++ t) = st.after t := by
  obtain ⟨b, r, rfl, hb⟩ := ht
  induction w generalizing st with
  | nil => exact ⟨rfl, rfl⟩
  | cons a w ih =>
    have ha := hw a (by simp)
    have hw' := fun ch h => hw ch (List.mem_cons_of_mem _ h)
    have hqa : (st.step a).q = .out := by unfold FW.LexSt.step; rw [if_pos ⟨hq, ha⟩]; split <;> simp [hq]
    obtain ⟨i1, i2⟩ := ih hqa hw'
    have hsa : (st.step a).step b = st.step b := by
      simp only [FW.LexSt.step, hq, ha, hb, and_self, if_true]
      by_cases h : st.sep = true <;> simp [h, hq]
    have hea : st.emit a ++ (st.step a).emit b = st.emit b := by
      simp only [FW.LexSt.step, FW.LexSt.emit, hq, ha, hb, and_self, if_true]
      by_cases h : st.sep = true <;> simp [h, hq]
    refine ⟨?_, ?_⟩
    · simp only [List.cons_append, FW.normFrom]
      rw [i1]
      simp only [FW.normFrom]
      rw [← List.append_assoc, hea, hsa]
    · simp only [List.cons_append, FW.LexSt.after, List.foldl_cons] at i2 ⊢
      rw [i2, hsa]

theorem rstrip_split (l : Str) : ∃ w, l = rstrip l ++ w ∧ ∀ ch ∈ w, isWs ch = true := by
  obtain ⟨a, ha, hw⟩ := FW.dropWhile_append_ws isWs l.reverse
  refine ⟨a.reverse, ?_, by simpa using hw⟩
  have := congrArg List.reverse ha
  simpa [rstrip] using this

theorem norm_parts {c : Ctx} {ps : List Part} (hch : Chain c ps) {st : FW.LexSt} (hr : Rel c st.q)
    (hs : ∀ p ∈ ps, p.ctx = .code → StartsBlank p.text ∨ p.amp = true) :
    FW.normFrom st (ps.map (·.text)).flatten = FW.normFrom st
      (ps.map fun p => if p.ctx = .code ∧ p.amp = false then ' ' :: p.text else p.text).flatten := by
  induction ps generalizing c st with
  | nil => rfl
  | cons p ps ih =>
    obtain ⟨hpc, hrest⟩ := hch
    have hkey : FW.normFrom st (if p.ctx = .code ∧ p.amp = false then ' ' :: p.text else p.text)
        = FW.normFrom st p.text ∧
        st.after (if p.ctx = .code ∧ p.amp = false then ' ' :: p.text else p.text)
        = st.after p.text := by
      split
      · next h =>
        have hsb := (hs p (by simp) h.1).resolve_right (by rw [h.2]; decide)
        exact ws_first (w := [' ']) (hr.out (hpc ▸ h.1)) (by simp; decide) hsb
      · exact ⟨rfl, rfl⟩
    simp only [List.map_cons, List.flatten_cons, FW.normFrom_append]
    rw [hkey.1, hkey.2]
    congr 1
    rcases hrest with rfl | ⟨h1, h2⟩
    · rfl
    · exact ih h2 (by rw [FW.after_q]; exact hr.fold _ h1) (fun p hp => hs p (by simp [hp]))

theorem norm_codeText {f : Str} {ps : List Part} (hf : f.foldl Ctx.step .code ≠ .comment)
    (hch : Chain (f.foldl Ctx.step .code) ps) (hs : Separated f ps) :
    FW.norm (codeText f ps) = FW.norm (joined f ps) := by
  have hr : Rel (f.foldl Ctx.step .code) (FW.LexSt.start.after f).q := by
    rw [FW.after_q]; exact Rel.fold .code f hf
  have hmain := norm_parts hch hr hs.1
  have hj : FW.norm (joined f ps) = FW.norm (f ++ (ps.map (·.text)).flatten) := by
    unfold FW.norm joined; rw [FW.normFrom_append, FW.normFrom_append, hmain]
  rw [hj]
  unfold codeText
  split
  · next hhd =>
    cases ps with
    | nil => simp at hhd
    | cons p ps =>
      simp only [List.head?_cons, Option.map_some, Option.some.injEq] at hhd
      rcases hs.2 p rfl hhd with hb | hb
      · obtain ⟨w, hw1, hw2⟩ := rstrip_split f
        obtain ⟨hpc, -⟩ := hch
        have hout : (FW.LexSt.start.after f).q = .out := hr.out (hpc ▸ hhd)
        have hout' : (FW.LexSt.start.after (rstrip f)).q = .out := by
          rw [hw1, FW.after_append, FW.after_q] at hout
          generalize (FW.LexSt.start.after (rstrip f)).q = q0 at hout
          clear hw1
          induction w generalizing q0 with
          | nil => exact hout
          | cons a w ih =>
            have ha := FW.isWs_not_quote (hw2 a (by simp))
            have := ih (fun ch h => hw2 ch (List.mem_cons_of_mem _ h)) _ hout
            exact FW.step_out_plain ⟨ha.1, ha.2.1⟩ this
        have hsb : StartsBlank ((p :: ps).map (·.text)).flatten := by
          obtain ⟨b, r, h1, h2⟩ := hb
          exact ⟨b, r ++ (ps.map (·.text)).flatten, by simp [h1], h2⟩
        have hws := ws_first hout' hw2 hsb
        unfold FW.norm
        conv => rhs; rw [hw1]
        rw [List.append_assoc, FW.normFrom_append, FW.normFrom_append, hws.1]
      · rw [hb]
  · rfl

/-- C56: a file is refused exactly when it is not legal; otherwise the lines keep their numbers,
lines outside continued statements are untouched, the first line of a continued statement becomes
the whole statement with the same significant text as under the Fortran rules (provided it is
`Separated`), and its other lines become empty. -/
theorem C56_continuation_partial (ls : List (Bool × Str)) :
    (analyse (ls.map fun p => (p.1, rstrip p.2)) = none → readFile ls = none) ∧
    ∀ os, analyse (ls.map fun p => (p.1, rstrip p.2)) = some os →
      ∃ out, readFile ls = some out ∧ out.length = os.length ∧
        ∀ (i : Nat) (o : LineOut) (l : Str), os[i]? = some o → out[i]? = some l →
          (∀ l', o = .same l' → l = l') ∧ (o = .empty → l = []) ∧
          (∀ f ps, o = .stmt f ps → Separated f ps → FW.norm l = FW.norm (joined f ps)) := by
  rw [C56_exact]
  refine ⟨fun h => by rw [h]; rfl, fun os h => ⟨os.map render, by rw [h]; rfl, by simp, ?_⟩⟩
  intro i o l ho hl
  rw [List.getElem?_map, ho] at hl
  simp only [Option.map_some, Option.some.injEq] at hl
  subst hl
  refine ⟨fun l' h => by rw [h]; rfl, fun h => by rw [h]; rfl, fun f ps h hs => ?_⟩
  subst h
  obtain ⟨h1, h2⟩ := (chains _).1 os h f ps (List.mem_of_getElem? ho)
  exact norm_codeText h1 h2 hs

theorem C56_lines_kept (ls : List (Bool × Str)) (os : List LineOut) (h : analyse ls = some os) :
    os.length = ls.length := by
  have : ∀ ls : List (Bool × Str), (∀ os, analyse ls = some os → os.length = ls.length) ∧
      (∀ c ps os, continued c ls = some (ps, os) → os.length = ls.length) := by
    intro ls
    induction ls with
    | nil => simp [analyse, continued]
    | cons x ls ih =>
      obtain ⟨vis, l⟩ := x
      obtain ⟨ih1, ih2⟩ := ih
      constructor
      · intro os h
        simp only [analyse] at h
        split at h
        · cases ha : analyse ls with
          | none => simp [ha] at h
          | some p => simp [ha] at h; subst h; simp [ih1 p ha]
        split at h
        · simp at h
        split at h
        · simp at h
        · cases ha : analyse ls with
          | none => simp [ha] at h
          | some p => simp [ha] at h; subst h; simp [ih1 p ha]
        · next t c hlt =>
          cases hc : continued c ls with
          | none => simp [hc] at h
          | some p => simp [hc] at h; subst h; simp [ih2 c p.1 p.2 hc]
      · intro c ps os h
        simp only [continued] at h
        split at h
        · cases hc : continued c ls with
          | none => simp [hc] at h
          | some p => simp [hc] at h; rw [← h.2]; simp [ih2 c p.1 p.2 hc]
        · split at h
          · simp at h
          · cases ha : analyse ls with
            | none => simp [ha] at h
            | some p => simp [ha] at h; rw [← h.2]; simp [ih1 p ha]
          · next t c' hlt =>
            cases hc : continued c' ls with
            | none => simp [hc] at h
            | some p => simp [hc] at h; rw [← h.2]; simp [ih2 c' p.1 p.2 hc]
  exact (this ls).1 os h

/-! ### Examples and counterexamples -/

/-- A statement over three lines with a comment line and a literal that is continued. -/
def demo : List (Bool × Str) :=
  [(true, "  x = foo(a, &  ! first".toList), (true, "  ! comment".toList),
   (true, "     & 'lit & ! eral&".toList), (true, "  & end', b)".toList), (true, "y = 1".toList)]

example : readFile demo = some ["  x = foo(a, 'lit & ! eral end', b)".toList, "  ! comment".toList,
    [], [], "y = 1".toList] := by decide
example : ∃ os f ps, analyse (demo.map fun p => (p.1, rstrip p.2)) = some os ∧
    os[0]? = some (.stmt f ps) ∧ Separated f ps ∧
    joined f ps = "  x = foo(a,  'lit & ! eral end', b)".toList := by
  refine ⟨[.stmt "  x = foo(a, ".toList [⟨.code, true, " 'lit & ! eral".toList⟩,
      ⟨.lit '\'', true, " end', b)".toList⟩], .same "  ! comment".toList, .empty, .empty,
      .same "y = 1".toList], "  x = foo(a, ".toList, [⟨.code, true, " 'lit & ! eral".toList⟩,
      ⟨.lit '\'', true, " end', b)".toList⟩], by decide, rfl, ⟨?_, ?_⟩, by decide⟩
  · intro p hp _
    simp only [List.mem_cons, List.not_mem_nil, or_false] at hp
    rcases hp with rfl | rfl
    · exact Or.inl ⟨_, _, rfl, rfl⟩
    · exact Or.inl ⟨_, _, rfl, rfl⟩
  · intro p hp _
    simp only [List.head?_cons, Option.some.injEq] at hp
    subst hp
    exact Or.inl ⟨_, _, rfl, rfl⟩
example : readFile [(true, "x = 'abc".toList)] = none := by decide

/-- C56 is false in general: the line end (and a blank before the first `&`) is dropped, so words
run together; both files are legal Fortran. -/
theorem C56_violated :
    (readFile [(true, "subroutine &".toList), (true, "foo(x)".toList)]
        = some ["subroutinefoo(x)".toList, []] ∧
      analyse [(true, "subroutine &".toList), (true, "foo(x)".toList)]
        = some [.stmt "subroutine ".toList [⟨.code, false, "foo(x)".toList⟩], .empty] ∧
      FW.norm "subroutinefoo(x)".toList
        ≠ FW.norm (joined "subroutine ".toList [⟨.code, false, "foo(x)".toList⟩])) ∧
    (readFile [(true, "call &".toList), (true, "&foo(x)".toList)] = some ["callfoo(x)".toList, []] ∧
      FW.norm "callfoo(x)".toList
        ≠ FW.norm (joined "call ".toList [⟨.code, true, "foo(x)".toList⟩])) := by
  decide

/-- A file that ends in the middle of a statement is not refused. -/
theorem C56_unfinished_accepted :
    readFile [(true, "call foo(x, &".toList)] = some ["call foo(x, &".toList] := by decide

end Ccpp.FL
