import Verif.Props.FortranWriter
import Verif.Props.FortranLines
/-!
# C57: what the Fortran writer writes, the Fortran reader reads back
-/
namespace Ccpp.FL
open FLS (Ctx lineText Part LineOut passed analyse continued joined)
open FW (Cfg Shape GoodLast NoComment norm normFrom)

/-- Helper: `FW.NoComment` from an arbitrary quote state. -/
def NC (q : FW.Q) (x : Str) : Prop :=
  ∀ a ch b, x = a ++ ch :: b → a.foldl FW.Q.step q = .out → ch ≠ '!' ∧ ch ≠ '&'

theorem NC.tail {q : FW.Q} {ch : Char} {x : Str} (h : NC q (ch :: x)) : NC (q.step ch) x := by
  intro a c b he hf
  exact h (ch :: a) c b (by simp [he]) (by simpa using hf)

theorem lineText_code {c : Ctx} {q : FW.Q} (hr : Rel c q) {x : Str} (hn : NC q x)
    (ho : x.foldl FW.Q.step q = .out) (tail : Str) :
    lineText c (x ++ tail) = (lineText .code tail).map fun p => (x ++ p.1, p.2) := by
  induction x generalizing c q with
  | nil =>
    cases hr with
    | code => cases h : lineText .code tail <;> simp [h]
    | sq => cases ho
    | dq => cases ho
  | cons ch x ih =>
    have hn' := hn.tail
    have ho' : x.foldl FW.Q.step (q.step ch) = .out := by simpa using ho
    cases hr with
    | code =>
      obtain ⟨h1, h2⟩ := hn [] ch x rfl rfl
      have hc : Ctx.code.step ch ≠ .comment := by
        simp only [Ctx.step, if_neg h1]; split <;> simp
      simp only [List.cons_append, lineText, if_neg h1, if_neg h2]
      rw [ih (Rel.code.step ch hc) hn' ho', Option.map_map]; rfl
    | sq =>
      have hc : (Ctx.lit '\'').step ch ≠ .comment := by simp only [Ctx.step]; split <;> simp
      have : ¬ (ch = '&' ∧ x ++ tail = []) := by
        rintro ⟨rfl, h⟩
        have : x = [] := (List.append_eq_nil_iff.1 h).1
        subst this; revert ho'; decide
      simp only [List.cons_append, lineText, if_neg this]
      rw [ih (Rel.sq.step ch hc) hn' ho', Option.map_map]; rfl
    | dq =>
      have hc : (Ctx.lit '"').step ch ≠ .comment := by simp only [Ctx.step]; split <;> simp
      have : ¬ (ch = '&' ∧ x ++ tail = []) := by
        rintro ⟨rfl, h⟩
        have : x = [] := (List.append_eq_nil_iff.1 h).1
        subst this; revert ho'; decide
      simp only [List.cons_append, lineText, if_neg this]
      rw [ih (Rel.dq.step ch hc) hn' ho', Option.map_map]; rfl

theorem nc_of {u : Str} (h : NoComment u) : NC .out u := h

theorem nc_ws {I : Str} (hI : ∀ ch ∈ I, isWs ch = true) {u : Str} (h : NC .out u) :
    NC .out (I ++ u) := by
  induction I with
  | nil => exact h
  | cons a I ih =>
    have ha := hI a (by simp)
    have hq := FW.isWs_not_quote ha
    have hs : FW.Q.step .out a = .out := by simp [FW.Q.step, hq.1, hq.2.1]
    intro x ch b he hf
    cases x with
    | nil => simp at he; rw [← he.1]; exact ⟨hq.2.2.1, hq.2.2.2.1⟩
    | cons y x =>
      simp only [List.cons_append, List.cons.injEq] at he
      obtain ⟨rfl, he⟩ := he
      rw [List.foldl_cons, hs] at hf
      exact ih (fun c hc => hI c (by simp [hc])) x ch b he hf

theorem passed_line {l : Str} {ch : Char} {r : Str} (h0 : lstrip l = ch :: r) (h1 : ch ≠ '!') :
    passed true l = none := by
  unfold passed; rw [dropBlank, h0]; simp [h1]

theorem passed_blank : passed true [] = some (.same []) := rfl

theorem norm_ws {I : Str} (hI : ∀ ch ∈ I, isWs ch = true) (sl : Bool) (x : Str) :
    normFrom ⟨.out, true, sl⟩ (I ++ x) = normFrom ⟨.out, true, sl⟩ x := by
  obtain ⟨a1, a2⟩ := FW.after_ws (st := ⟨.out, true, sl⟩) rfl rfl hI
  rw [FW.normFrom_append, a1, a2]; rfl

theorem norm_lstrip (sl : Bool) (x : Str) :
    normFrom ⟨.out, true, sl⟩ (lstrip x) = normFrom ⟨.out, true, sl⟩ x := by
  obtain ⟨w, h1, h2⟩ := FW.dropWhile_append_ws isWs x
  conv => rhs; rw [h1]
  rw [norm_ws h2]; rfl

theorem fold_lstrip (x : Str) : (lstrip x).foldl FW.Q.step .out = x.foldl FW.Q.step .out := by
  obtain ⟨w, h1, h2⟩ := FW.dropWhile_append_ws isWs x
  conv => rhs; rw [h1]
  rw [List.foldl_append, FW.foldl_ws h2]; rfl

theorem goodLast_head {u cur : Str} (hu : lstrip cur = u) (hg : u ≠ []) (hn : NoComment u) :
    ∃ ch r, u = ch :: r ∧ isWs ch = false ∧ ch ≠ '!' ∧ ch ≠ '&' := by
  obtain ⟨ch, r, rfl⟩ := List.exists_cons_of_ne_nil hg
  obtain ⟨h1, h2⟩ := hn [] ch r rfl rfl
  exact ⟨ch, r, rfl, FW.lstrip_head_ne hu, h1, h2⟩

theorem lstrip_indent (c : Cfg) (level : Nat) (cl : Bool) {ch : Char} {r t : Str}
    (h : isWs ch = false) : lstrip (c.indent level cl ++ (ch :: r) ++ t) = ch :: (r ++ t) := by
  rw [List.append_assoc, FW.lstrip_ws_append (FW.indent_ws c level cl), List.cons_append,
    FW.lstrip_cons_of h]

/-- The state after a break point. -/
theorem after_piece {x : Str} (ho : x.foldl FW.Q.step .out = .out) (hb : FW.EndsBreak x) (sl : Bool)
    {pad : Str} (hp : ∀ ch ∈ pad, isWs ch = true) :
    ∃ sl', (⟨.out, true, sl⟩ : FW.LexSt).after x = ⟨.out, true, sl'⟩ ∧
      (⟨.out, true, sl⟩ : FW.LexSt).after (x ++ pad) = ⟨.out, true, sl'⟩ ∧
      normFrom ⟨.out, true, sl⟩ (x ++ pad) = normFrom ⟨.out, true, sl⟩ x := by
  have hout : ((⟨.out, true, sl⟩ : FW.LexSt).after x).q = .out := by rw [FW.after_q]; exact ho
  have hsep := FW.after_break ⟨.out, true, sl⟩ x hb hout
  obtain ⟨a1, a2⟩ := FW.after_ws hout hsep hp
  rw [FW.after_append, FW.normFrom_append, a1, a2, List.append_nil]
  generalize (⟨.out, true, sl⟩ : FW.LexSt).after x = st at *
  obtain ⟨q, sp, s2⟩ := st
  simp only at hout hsep
  subst hout; subst hsep
  exact ⟨s2, rfl, rfl, rfl⟩

theorem rep_ws (n : Nat) : ∀ ch ∈ List.replicate n ' ', isWs ch = true := by
  intro ch h; rw [(List.mem_replicate.1 h).2]; decide

theorem startsBlank_indent (c : Cfg) (level : Nat) (hi : 0 < c.ind * level + c.cont) (x : Str) :
    StartsBlank (c.indent level true ++ x) := by
  unfold Cfg.indent
  obtain ⟨k, hk⟩ : ∃ k, c.ind * level + c.cont = k + 1 := ⟨c.ind * level + c.cont - 1, by omega⟩
  exact ⟨' ', List.replicate k ' ' ++ x, by simp [hk, List.replicate_succ], by decide⟩

/-- Lines of a continuation, followed by anything. -/
theorem continued_shape {c : Cfg} {level : Nat} (hi : 0 < c.ind * level + c.cont) {cl : Bool}
    {cur : Str} {lines : List Str} (hs : Shape c level cl cur lines) (hcl : cl = true)
    (ho : cur.foldl FW.Q.step .out = .out) :
    ∃ (ps : List Part) (outs : List LineOut), ps ≠ [] ∧
      (∀ p ∈ ps, p.ctx = .code) ∧ StartsBlank (ps.map (·.text)).flatten ∧
      outs.length = lines.length ∧ (∀ o ∈ outs, render o = []) ∧
      (∀ sl, normFrom ⟨.out, true, sl⟩ (ps.map (·.text)).flatten = normFrom ⟨.out, true, sl⟩ cur) ∧
      ∀ R, continued .code (lines.map (fun l => (true, l)) ++ R)
        = (analyse R).map fun os => (ps, outs ++ os) := by
  induction hs with
  | last cl cur u tail hu hg hn ht =>
    subst hcl
    have hne : u ≠ [] := by rintro rfl; obtain ⟨z, h, -⟩ := hg; cases h
    obtain ⟨ch, r, rfl, hw, h1, h2⟩ := goodLast_head hu hne hn
    have hl0 := lstrip_indent c level true (r := r) (t := []) hw
    simp only [List.append_nil] at hl0
    have hsp : lineText .code (c.indent level true ++ ch :: r)
        = some (c.indent level true ++ ch :: r, none) := by
      have hq : (c.indent level true ++ ch :: r).foldl FW.Q.step .out = .out := by
        rw [List.foldl_append, FW.foldl_ws (FW.indent_ws c level true), ← hu, fold_lstrip]; exact ho
      have := lineText_code .code (nc_ws (FW.indent_ws c level true) (nc_of hn)) hq []
      simpa [lineText] using this
    have hnorm : ∀ sl, normFrom ⟨.out, true, sl⟩ (c.indent level true ++ ch :: r)
        = normFrom ⟨.out, true, sl⟩ cur := by
      intro sl; rw [norm_ws (FW.indent_ws c level true), ← hu, norm_lstrip]
    have hgo : ∀ R, continued .code ((true, c.indent level true ++ ch :: r) :: R)
        = (analyse R).map fun os =>
          ([⟨.code, false, c.indent level true ++ ch :: r⟩], .empty :: os) := by
      intro R
      simp only [continued, passed_line hl0 h1, (head_amp hl0).1, h2, if_false, hsp, decide_false]
    refine ⟨[⟨.code, false, c.indent level true ++ ch :: r⟩],
      .empty :: tail.map (fun _ => .same []), by simp, by simp, by
        simpa using startsBlank_indent c level hi (ch :: r), by simp, ?_, by simpa using hnorm, ?_⟩
    · rcases ht with rfl | rfl <;> simp [render]
    · intro R
      rcases ht with rfl | rfl
      · simpa using hgo R
      · have := hgo ((true, []) :: R)
        simp only [List.map_cons, List.map_nil, List.cons_append, List.nil_append]
        rw [this]
        simp only [analyse, passed_blank, Option.map_map]
        rfl
  | more cl cur u x y n lines hu hxy hx hn hox hb hl ih =>
    subst hcl
    have hoy : y.foldl FW.Q.step .out = .out := by
      rw [← fold_lstrip, hu, hxy, List.foldl_append, hox] at ho; exact ho
    obtain ⟨ps, outs, i1, i2, i3, i4, i5, i6, i7⟩ := ih rfl hoy
    have hune : u ≠ [] := by rw [hxy]; simp [hx]
    obtain ⟨ch, r, hcr, hw, h1, h2⟩ := goodLast_head hu hune hn
    obtain ⟨ch', r', rfl⟩ := List.exists_cons_of_ne_nil hx
    have hch : ch' = ch := by rw [hxy] at hcr; simpa using congrArg List.head? hcr
    subst hch
    have hl0 := lstrip_indent c level true (r := r') (t := List.replicate n ' ' ++ ['&']) hw
    have hIx : (c.indent level true ++ (ch' :: r') ++ List.replicate n ' ').foldl FW.Q.step .out = .out := by
      rw [List.foldl_append, List.foldl_append, FW.foldl_ws (FW.indent_ws c level true), hox,
        FW.foldl_ws (rep_ws n)]
    have hncx : NC .out (c.indent level true ++ (ch' :: r') ++ List.replicate n ' ') := by
      rw [List.append_assoc]
      refine nc_ws (FW.indent_ws c level true) ?_
      intro a c0 b he hf
      rcases List.append_eq_append_iff.1 he with ⟨a', h1', h2'⟩ | ⟨b', h1', h2'⟩
      · have : c0 ∈ List.replicate n ' ' := by rw [h2']; simp
        rw [(List.mem_replicate.1 this).2]; decide
      · cases b' with
        | nil =>
          have : c0 ∈ List.replicate n ' ' := by
            simp at h2'; rw [← h2']; simp
          rw [(List.mem_replicate.1 this).2]; decide
        | cons b0 b' =>
          simp at h2'
          obtain ⟨rfl, -⟩ := h2'
          exact hn a c0 (b' ++ y) (by rw [hxy, h1']; simp) hf
    have hsp : lineText .code (c.indent level true ++ (ch' :: r') ++ List.replicate n ' ' ++ ['&'])
        = some (c.indent level true ++ (ch' :: r') ++ List.replicate n ' ', some .code) := by
      have := lineText_code .code hncx hIx ['&']
      rw [this]
      simp [lineText]
    refine ⟨⟨.code, false, c.indent level true ++ (ch' :: r') ++ List.replicate n ' '⟩ :: ps,
      .empty :: outs, by simp, ?_, ?_, by simp [i4], ?_, ?_, ?_⟩
    · intro p hp
      rcases List.mem_cons.1 hp with rfl | hp
      · rfl
      · exact i2 p hp
    · simp only [List.map_cons, List.flatten_cons, List.append_assoc]
      exact startsBlank_indent c level hi _
    · intro o ho'
      rcases List.mem_cons.1 ho' with rfl | ho'
      · rfl
      · exact i5 o ho'
    · intro sl
      simp only [List.map_cons, List.flatten_cons]
      rw [List.append_assoc, List.append_assoc, norm_ws (FW.indent_ws c level true),
        ← List.append_assoc, FW.normFrom_append]
      obtain ⟨sl', e1, e2, e3⟩ := after_piece hox hb sl (rep_ws n)
      rw [e2, e3, i6, ← norm_lstrip sl cur, hu, hxy, FW.normFrom_append, e1]
    · intro R
      simp only [List.map_cons, List.cons_append]
      simp only [List.append_assoc, List.cons_append] at hl0 hsp ⊢
      simp only [continued, passed_line hl0 h1, (head_amp hl0).1, h2, if_false, hsp, decide_false]
      rw [i7, Option.map_map]
      rfl

theorem norm_rstrip {f t : Str} (ho : (FW.LexSt.start.after f).q = .out) (hb : StartsBlank t) :
    norm (rstrip f ++ t) = norm (f ++ t) := by
  obtain ⟨w, hw1, hw2⟩ := rstrip_split f
  have hout' : (FW.LexSt.start.after (rstrip f)).q = .out := by
    rw [hw1, FW.after_append, FW.after_q] at ho
    generalize (FW.LexSt.start.after (rstrip f)).q = q0 at ho
    clear hw1
    induction w generalizing q0 with
    | nil => exact ho
    | cons a w ih =>
      have ha := FW.isWs_not_quote (hw2 a (by simp))
      have := ih (fun ch h => hw2 ch (List.mem_cons_of_mem _ h)) _ ho
      exact FW.step_out_plain ⟨ha.1, ha.2.1⟩ this
  have hws := ws_first hout' hw2 hb
  unfold norm
  conv => rhs; rw [hw1]
  rw [List.append_assoc, FW.normFrom_append, FW.normFrom_append, hws.1]

/-- Lines of a statement, followed by anything. -/
theorem analyse_shape {c : Cfg} {level : Nat} (hi : 0 < c.ind * level + c.cont) {cl : Bool}
    {cur : Str} {lines : List Str} (hs : Shape c level cl cur lines)
    (ho : cur.foldl FW.Q.step .out = .out) :
    ∃ (o : LineOut) (outs : List LineOut), render o ≠ [] ∧ norm (render o) = norm cur ∧
      (o :: outs).length = lines.length ∧ (∀ x ∈ outs, render x = []) ∧
      ∀ R, analyse (lines.map (fun l => (true, l)) ++ R)
        = (analyse R).map fun os => o :: (outs ++ os) := by
  cases hs with
  | last cl cur u tail hu hg hn ht =>
    have hne : u ≠ [] := by rintro rfl; obtain ⟨z, h, -⟩ := hg; cases h
    obtain ⟨ch, r, rfl, hw, h1, h2⟩ := goodLast_head hu hne hn
    have hl0 := lstrip_indent c level cl (r := r) (t := []) hw
    simp only [List.append_nil] at hl0
    have hsp : lineText .code (c.indent level cl ++ ch :: r)
        = some (c.indent level cl ++ ch :: r, none) := by
      have hq : (c.indent level cl ++ ch :: r).foldl FW.Q.step .out = .out := by
        rw [List.foldl_append, FW.foldl_ws (FW.indent_ws c level cl), ← hu, fold_lstrip]; exact ho
      have := lineText_code .code (nc_ws (FW.indent_ws c level cl) (nc_of hn)) hq []
      simpa [lineText] using this
    have hgo : ∀ R, analyse ((true, c.indent level cl ++ ch :: r) :: R)
        = (analyse R).map fun os => .same (c.indent level cl ++ ch :: r) :: os := by
      intro R
      simp only [analyse, passed_line hl0 h1, (head_amp hl0).1, h2, if_false, hsp]
    refine ⟨.same (c.indent level cl ++ ch :: r), tail.map (fun _ => .same []), by simp [render], ?_,
      by simp, ?_, ?_⟩
    · show normFrom ⟨.out, true, false⟩ _ = normFrom ⟨.out, true, false⟩ _
      simp only [render]
      rw [norm_ws (FW.indent_ws c level cl), ← hu, norm_lstrip]
    · rcases ht with rfl | rfl <;> simp [render]
    · intro R
      rcases ht with rfl | rfl
      · simpa using hgo R
      · have := hgo ((true, []) :: R)
        simp only [List.map_cons, List.map_nil, List.cons_append, List.nil_append]
        rw [this]
        simp only [analyse, passed_blank, Option.map_map]
        rfl
  | more cl cur u x y n lines hu hxy hx hn hox hb hl =>
    have hoy : y.foldl FW.Q.step .out = .out := by
      rw [← fold_lstrip, hu, hxy, List.foldl_append, hox] at ho; exact ho
    obtain ⟨ps, outs, i1, i2, i3, i4, i5, i6, i7⟩ := continued_shape hi hl rfl hoy
    have hune : u ≠ [] := by rw [hxy]; simp [hx]
    obtain ⟨ch, r, hcr, hw, h1, h2⟩ := goodLast_head hu hune hn
    obtain ⟨ch', r', rfl⟩ := List.exists_cons_of_ne_nil hx
    have hch : ch' = ch := by rw [hxy] at hcr; simpa using congrArg List.head? hcr
    subst hch
    have hl0 := lstrip_indent c level cl (r := r') (t := List.replicate n ' ' ++ ['&']) hw
    have hIx : (c.indent level cl ++ (ch' :: r') ++ List.replicate n ' ').foldl FW.Q.step .out = .out := by
      rw [List.foldl_append, List.foldl_append, FW.foldl_ws (FW.indent_ws c level cl), hox,
        FW.foldl_ws (rep_ws n)]
    have hncx : NC .out (c.indent level cl ++ (ch' :: r') ++ List.replicate n ' ') := by
      rw [List.append_assoc]
      refine nc_ws (FW.indent_ws c level cl) ?_
      intro a c0 b he hf
      rcases List.append_eq_append_iff.1 he with ⟨a', h1', h2'⟩ | ⟨b', h1', h2'⟩
      · have : c0 ∈ List.replicate n ' ' := by rw [h2']; simp
        rw [(List.mem_replicate.1 this).2]; decide
      · cases b' with
        | nil =>
          have : c0 ∈ List.replicate n ' ' := by
            simp at h2'; rw [← h2']; simp
          rw [(List.mem_replicate.1 this).2]; decide
        | cons b0 b' =>
          simp at h2'
          obtain ⟨rfl, -⟩ := h2'
          exact hn a c0 (b' ++ y) (by rw [hxy, h1']; simp) hf
    have hsp : lineText .code (c.indent level cl ++ (ch' :: r') ++ List.replicate n ' ' ++ ['&'])
        = some (c.indent level cl ++ (ch' :: r') ++ List.replicate n ' ', some .code) := by
      have := lineText_code .code hncx hIx ['&']
      rw [this]
      simp [lineText]
    have hhd : ps.head?.map (·.ctx) = some .code := by
      obtain ⟨p, ps', rfl⟩ := List.exists_cons_of_ne_nil i1
      simp [i2 p (by simp)]
    have hren : codeText (c.indent level cl ++ (ch' :: r') ++ List.replicate n ' ') ps
        = rstrip (c.indent level cl ++ (ch' :: r') ++ List.replicate n ' ')
          ++ (ps.map (·.text)).flatten := by
      unfold codeText; rw [if_pos hhd]
    refine ⟨.stmt (c.indent level cl ++ (ch' :: r') ++ List.replicate n ' ') ps, outs, ?_, ?_,
      by simp [i4], i5, ?_⟩
    · simp only [render, hren]
      obtain ⟨b, r0, h3, -⟩ := i3
      rw [h3]; simp
    · simp only [render, hren]
      rw [norm_rstrip (by rw [FW.after_q]; exact hIx) i3]
      show normFrom ⟨.out, true, false⟩ _ = normFrom ⟨.out, true, false⟩ _
      rw [List.append_assoc, List.append_assoc, norm_ws (FW.indent_ws c level cl),
        ← List.append_assoc, FW.normFrom_append]
      obtain ⟨sl', e1, e2, e3⟩ := after_piece hox hb false (rep_ws n)
      rw [e2, e3, i6, ← norm_lstrip false cur, hu, hxy, FW.normFrom_append, e1]
    · intro R
      simp only [List.map_cons, List.cons_append]
      simp only [List.append_assoc, List.cons_append] at hl0 hsp ⊢
      simp only [analyse, passed_line hl0 h1, (head_amp hl0).1, h2, if_false, hsp]
      rw [i7, Option.map_map]
      congr 1; funext os
      simp [i1]

theorem shape_rstrip {c : Cfg} {level : Nat} {cl : Bool} {cur : Str} {lines : List Str}
    (hs : Shape c level cl cur lines) : ∀ l ∈ lines, rstrip l = l := by
  induction hs with
  | last cl cur u tail hu hg hn ht =>
    intro l hl
    rcases List.mem_cons.1 hl with rfl | hl
    · obtain ⟨z, z1, z2, -⟩ := hg.pre (a := c.indent level cl)
      exact FW.rstrip_of_last z1 z2
    · rcases ht with rfl | rfl
      · simp at hl
      · simp at hl; subst hl; rfl
  | more cl cur u x y n lines hu hxy hx hn hox hb hl ih =>
    intro l hl
    rcases List.mem_cons.1 hl with rfl | hl
    · exact FW.rstrip_of_last (z := '&') (by simp) (by decide)
    · exact ih l hl

/-- A statement that the writer can break anywhere it has to (see C22): one line of text without
comment or `&` outside quotes, not ending in a comma, a slash, a blank or `&`, every stretch of `w`
characters with an unquoted blank, comma or `//`, and all quotes closed. -/
structure Writable (w : Nat) (s : Str) : Prop where
  oneLine : '\n' ∉ s
  last : GoodLast s
  noComment : NoComment s
  breakable : FW.Breakable w s
  closed : s.foldl FW.Q.step .out = .out

/-- C57: statements written one after the other, at any indentation levels, are read back as the
same statements in the same order: the file is accepted, and the significant text of its non-empty
lines is the significant text of the statements. -/
theorem C57_roundtrip_partial (c : Cfg) (w : Nat) (hf : c.fill < c.max) (hcont : 0 < c.cont)
    (stmts : List (Nat × Str)) (hs : ∀ p ∈ stmts, Writable w p.2)
    (hroom : ∀ p ∈ stmts, c.ind * p.1 + c.cont + w + 2 ≤ c.max) :
    ∃ files : List (List Str), files.length = stmts.length ∧
      (∀ (i : Nat) (p : Nat × Str), stmts[i]? = some p → ∀ fuel, p.2.length + 1 ≤ fuel →
        ∃ f, files[i]? = some f ∧ FW.write c p.1 fuel p.2 false = (f, .ok)) ∧
      ∃ out, readFile (files.flatten.map fun l => (true, l)) = some out ∧
        (out.filter (fun l => decide (l ≠ []))).map norm = stmts.map fun p => norm p.2 := by
  have key : ∃ files : List (List Str), files.length = stmts.length ∧
      (∀ (i : Nat) (p : Nat × Str), stmts[i]? = some p → ∀ fuel, p.2.length + 1 ≤ fuel →
        ∃ f, files[i]? = some f ∧ FW.write c p.1 fuel p.2 false = (f, .ok)) ∧
      (∀ f ∈ files, ∀ l ∈ f, rstrip l = l) ∧
      ∃ os, analyse (files.flatten.map fun l => (true, l)) = some os ∧
        ((os.map render).filter (fun l => decide (l ≠ []))).map norm
          = stmts.map fun p => norm p.2 := by
    induction stmts with
    | nil => exact ⟨[], rfl, by simp, by simp, [], rfl, rfl⟩
    | cons p stmts ih =>
      obtain ⟨files, h1, h2, h3, os, h4, h5⟩ := ih (fun q hq => hs q (by simp [hq]))
        (fun q hq => hroom q (by simp [hq]))
      have hp := hs p (by simp)
      obtain ⟨lines, t, e1, -, -, -, esh⟩ := FW.write1_class c p.1 w hf (hroom p (by simp))
        p.2.length p.2 rfl hp.last hp.noComment hp.breakable (p.2.length + 1) false (Nat.le_refl _)
      obtain ⟨o, outs, a1, a2, a3, a4, a5⟩ := analyse_shape (by omega) esh hp.closed
      refine ⟨lines :: files, by simp [h1], ?_, ?_, o :: (outs ++ os), ?_, ?_⟩
      · intro i q hq fuel hfuel
        cases i with
        | succ i => simpa using h2 i q (by simpa using hq) fuel hfuel
        | zero =>
          simp at hq; subst hq
          refine ⟨lines, by simp, ?_⟩
          obtain ⟨lines', -, e1', -, -, -, esh'⟩ := FW.write1_class c p.1 w hf (hroom p (by simp))
            p.2.length p.2 rfl hp.last hp.noComment hp.breakable fuel false hfuel
          have : lines' = lines := by
            have := FW.write1_mono c p.1 (p.2.length + 1) fuel p.2 false lines hfuel e1
            rw [this] at e1'; simpa using e1'.symm
          subst this
          simp [FW.write, FW.splitNL_single hp.oneLine, FW.writeParts, e1']
      · intro f hf'
        rcases List.mem_cons.1 hf' with rfl | hf'
        · exact shape_rstrip esh
        · exact h3 f hf'
      · rw [List.flatten_cons, List.map_append, a5, h4]; rfl
      · have hempty : ((outs.map render).filter (fun l => decide (l ≠ []))) = [] := by
          rw [List.filter_eq_nil_iff]
          intro l hl
          obtain ⟨x, hx, rfl⟩ := List.mem_map.1 hl
          simp [a4 x hx]
        have hh : decide (render o ≠ []) = true := decide_eq_true a1
        rw [List.map_cons, List.map_append, List.filter_cons_of_pos (p := fun l => decide (l ≠ [])) hh, List.filter_append, hempty,
          List.nil_append, List.map_cons, List.map_cons, a2, h5]
  obtain ⟨files, h1, h2, h3, os, h4, h5⟩ := key
  refine ⟨files, h1, h2, os.map render, ?_, h5⟩
  rw [C56_exact, List.map_map]
  have : (files.flatten.map ((fun p : Bool × Str => (p.1, rstrip p.2)) ∘ fun l => (true, l)))
      = files.flatten.map fun l => (true, l) := by
    apply List.map_congr_left
    intro l hl
    obtain ⟨f, hf', hlf⟩ := List.mem_flatten.1 hl
    simp [h3 f hf' l hlf]
  rw [this, h4]; rfl

/-! Non-vacuity: a program of two statements, one of which needs three lines. -/

example : Writable 12 "call foo('a! b', beta, x // gamma // delta)".toList :=
  ⟨by decide, ⟨')', by decide, by decide, by decide, by decide, by decide⟩,
    FW.noComment_of_check (by decide), FW.breakable_of_check (by decide), by decide⟩
example : Writable 12 "x = 1".toList :=
  ⟨by decide, ⟨'1', by decide, by decide, by decide, by decide, by decide⟩,
    FW.noComment_of_check (by decide), FW.breakable_of_check (by decide), by decide⟩
example : ∃ lines, FW.write ⟨3, 5, 20, 30⟩ 0 99
    "call foo('a! b', beta, x // gamma // delta)".toList false = (lines, .ok) ∧ lines.length = 3 ∧
    ((readFile (lines.map fun l => (true, l))).map (List.map norm))
      = some ["call foo('a! b',beta,x //gamma //delta)".toList, [], []] := by
  refine ⟨_, rfl, by decide, by decide⟩

end Ccpp.FL
