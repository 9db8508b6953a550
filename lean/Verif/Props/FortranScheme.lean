import Verif.Model.FortranScheme
import Verif.Spec.FortranScheme
import Verif.Props.FortranParse
/-!
# Proofs for C60: statements
-/
namespace Ccpp.FSub

open Ccpp.FDecl

/-- A word of a regular expression. -/
def IsKw (w : Str) : Prop := ∃ c r, w = c :: r ∧ isWs c = false

theorem kw_of {b v r w : Str} (hb : Blank b) (hv : lower v = w) (hw : IsKw w) : kw w (b ++ v ++ r) = some r := by
  obtain ⟨c, t, rfl, hc⟩ := hw
  cases v with
  | nil => cases hv
  | cons d v =>
    have hd : isWs d = false := by
      rw [lower_cons] at hv
      injection hv with h1 _
      rw [← toLower_ws, h1, hc]
    unfold kw
    rw [List.append_assoc, lstrip_blank hb, List.cons_append, lstrip_cons hd, ← List.cons_append]
    exact dropWord_match hv r

theorem kw_some {w s r : Str} (h : kw w s = some r) : ∃ b v, s = b ++ v ++ r ∧ Blank b ∧ lower v = w := by
  unfold kw dropWord? at h
  split at h
  · rename_i hl
    injection h with h
    obtain ⟨b, hb, e⟩ := lstrip_split s
    refine ⟨b, (lstrip s).take w.length, ?_, hb, hl⟩
    rw [← h, List.append_assoc, List.take_append_drop]
    exact e
  · cases h

/-- The chain of words of a regular expression. -/
def kws : List Str → Str → Option Str
  | [], s => some s
  | w :: ws, s => (kw w s).bind (kws ws)

theorem kws_iff (ws : List Str) (hw : ∀ w ∈ ws, IsKw w) : ∀ s, (kws ws s).isSome = true ↔ Begins ws s := by
  induction ws with
  | nil => intro s; simp [kws, Begins]
  | cons w ws ih =>
    intro s
    have ih := ih fun w h => hw w (List.mem_cons_of_mem _ h)
    constructor
    · intro h
      cases hk : kw w s with
      | none => rw [kws, hk] at h; cases h
      | some r =>
        rw [kws, hk] at h
        obtain ⟨b, v, e, hb, hv⟩ := kw_some hk
        exact ⟨b, v, r, e, hb, hv, (ih r).1 h⟩
    · rintro ⟨b, v, r, rfl, hb, hv, hr⟩
      rw [kws, kw_of hb hv (hw w List.mem_cons_self)]
      exact (ih r).2 hr

theorem kw_none {w s : Str} (h : ¬ Begins [w] s) : kw w s = none := by
  cases hk : kw w s with
  | none => rfl
  | some r =>
    obtain ⟨b, v, e, hb, hv⟩ := kw_some hk
    exact absurd ⟨b, v, r, e, hb, hv, trivial⟩ h

theorem Begins.head {w : Str} {ws : List Str} {s : Str} (h : Begins (w :: ws) s) : Begins [w] s := by
  obtain ⟨b, v, r, e, hb, hv, _⟩ := h
  exact ⟨b, v, r, e, hb, hv, trivial⟩

theorem dropWord_len {k s r : Str} (h : dropWord? k s = some r) : ∃ v, s = v ++ r ∧ lower v = k := by
  unfold dropWord? at h
  split at h
  · rename_i hl
    injection h with h
    exact ⟨s.take k.length, by rw [← h, List.take_append_drop], hl⟩
  · cases h

/-- Two words that differ cannot both begin a text. -/
theorem Begins.differ {k w : Str} {ws us : List Str} {s : Str} (hk : IsKw k) (hw : IsKw w) (h : Begins (k :: ws) s)
    (h' : Begins (w :: us) s) (j : Nat) (hj : j ≤ k.length) (hjw : j ≤ w.length) : k.take j = w.take j := by
  obtain ⟨b, v, r, rfl, hb, hv, _⟩ := h
  obtain ⟨b', v', r', e, hb', hv', _⟩ := h'
  obtain ⟨c, t, ek, hc⟩ := hk
  obtain ⟨c', t', ew, hc'⟩ := hw
  have key : ∀ {b v r : Str} {c : Char} {t : Str}, Blank b → lower v = c :: t → isWs c = false → lstrip (b ++ v ++ r) = v ++ r := by
    intro b v r c t hb hv hc
    rw [List.append_assoc, lstrip_blank hb]
    cases v with
    | nil => cases hv
    | cons d v =>
      rw [lower_cons] at hv
      injection hv with h1 _
      exact lstrip_cons (by rw [← toLower_ws, h1, hc])
  have h1 := key (r := r) hb (hv.trans ek) hc
  have h2 := key (r := r') hb' (hv'.trans ew) hc'
  rw [e, h2] at h1
  have h3 := congrArg (fun x => (lower x).take j) h1
  simp only [lower_append, hv, hv'] at h3
  rw [List.take_append_of_le_length hj, List.take_append_of_le_length hjw] at h3
  exact h3.symm

/-! ## What a statement is not -/

theorem subStmt_some {s : Str} (h : subStmt s ≠ none) : Begins ["subroutine".toList] s ∨
    ∃ p ∈ ["recursive".toList, "pure".toList, "elemental".toList], Begins [p, "subroutine".toList] s := by
  unfold subStmt at h
  cases hf : prefixes.findSome? (fun p => kw p s) with
  | none =>
    simp only [hf] at h
    cases hk : kw "subroutine".toList s with
    | none => rw [hk] at h; exact absurd rfl h
    | some r =>
      obtain ⟨b, v, e, hb, hv⟩ := kw_some hk
      exact .inl ⟨b, v, r, e, hb, hv, trivial⟩
  | some q =>
    simp only [hf] at h
    obtain ⟨p, hp, hkp⟩ := List.exists_of_findSome?_eq_some hf
    cases hk : kw "subroutine".toList q with
    | none => rw [hk] at h; exact absurd rfl h
    | some r =>
      obtain ⟨b, v, e, hb, hv⟩ := kw_some hk
      obtain ⟨b', v', e', hb', hv'⟩ := kw_some hkp
      exact .inr ⟨p, hp, b', v', q, e', hb', hv', b, v, r, e, hb, hv, trivial⟩

theorem isKw_sub : IsKw "subroutine".toList := ⟨_, _, rfl, by decide⟩
theorem isKw_end : IsKw "end".toList := ⟨_, _, rfl, by decide⟩

theorem endSub_iff (s : Str) : endSub s = true ↔ Begins ["end".toList, "subroutine".toList] s := by
  rw [← kws_iff _ (by intro w hw; simp only [List.mem_cons, List.not_mem_nil, or_false] at hw
                      rcases hw with rfl | rfl
                      · exact isKw_end
                      · exact isKw_sub)]
  unfold endSub
  have : kws ["end".toList, "subroutine".toList] s = (kw "end".toList s).bind (kw "subroutine".toList) := by
    show (kw _ s).bind (fun t => (kw _ t).bind fun t => some t) = _
    congr 1
    funext t
    cases kw "subroutine".toList t <;> rfl
  rw [this]

theorem endModule_begins {s : Str} (h : endModule s = true) : Begins ["end".toList, "module".toList] s := by
  unfold endModule at h
  split at h
  · rename_i c t heq
    cases hk : kw "end".toList s with
    | none => rw [hk] at heq; cases heq
    | some r =>
      rw [hk] at heq
      obtain ⟨b, v, e, hb, hv⟩ := kw_some hk
      obtain ⟨b', v', e', hb', hv'⟩ := kw_some (show kw "module".toList r = some _ from heq)
      exact ⟨b, v, r, e, hb, hv, b', v', _, e', hb', hv', trivial⟩
  · cases h

theorem argTable_begins {s : Str} (h : argTable s = true) : ∃ a b, lower s = a ++ "arg_table_".toList ++ b := by
  unfold argTable at h
  split at h
  · rename_i c t heq
    rw [Bool.and_eq_true] at h
    obtain ⟨_, h⟩ := h
    split at h
    · rename_i r hk
      obtain ⟨b, v, e, hb, hv⟩ := kw_some hk
      obtain ⟨b0, _, e0⟩ := lstrip_split s
      obtain ⟨z, hz⟩ : ∃ z, t = z ++ (kw "\\section".toList t).getD t := by
        cases hs : kw "\\section".toList t with
        | none => exact ⟨[], rfl⟩
        | some q =>
          obtain ⟨x, y, ex, _⟩ := kw_some hs
          exact ⟨x ++ y, ex⟩
      rw [e] at hz
      rw [heq, hz] at e0
      refine ⟨lower (b0 ++ '!' :: c :: (z ++ b)), lower r, ?_⟩
      rw [e0, ← hv, ← lower_append, ← lower_append]
      simp [List.append_assoc]
    · cases h
  · cases h

theorem argTable_bang {s : Str} (h : argTable s = true) : Begins [['!']] s := by
  unfold argTable at h
  split at h
  · rename_i c t heq
    obtain ⟨b0, hb, e0⟩ := lstrip_split s
    exact ⟨b0, ['!'], c :: t, by rw [e0, heq]; simp, hb, by decide, trivial⟩
  · cases h

theorem isContains_begins {s : Str} {i : Bool} (h : isContains s i = true) : Begins ["contains".toList] s := by
  unfold isContains at h
  rw [Bool.and_eq_true] at h
  cases hk : kw "contains".toList (strip s) with
  | none => rw [hk] at h; cases h.2
  | some r =>
    obtain ⟨a, b, ha, _, e⟩ := strip_split s
    obtain ⟨b', v', e', hb', hv'⟩ := kw_some hk
    refine ⟨a ++ b', v', r ++ b, ?_, ha.append hb', hv', trivial⟩
    rw [e, e']
    simp [List.append_assoc]

theorem useStmt_begins {s : Str} (h : useStmt s = true) : Begins ["use".toList, "only".toList] s ∨
    Begins ["use".toList, [','], "intrinsic".toList, "::".toList, "only".toList] s := by
  unfold useStmt at h
  split at h
  · rename_i c t hk
    obtain ⟨b, v, e, hb, hv⟩ := kw_some hk
    rw [Bool.and_eq_true] at h
    obtain ⟨hc, h⟩ := h
    have plain : ∀ r, kw "only".toList t = some r → Begins ["use".toList, "only".toList] s := by
      intro r hr
      obtain ⟨b', v', e', hb', hv'⟩ := kw_some hr
      refine ⟨b, v, c :: t, e, hb, hv, c :: b', v', r, by rw [e']; simp, ?_, hv', trivial⟩
      intro x hx
      rcases List.mem_cons.1 hx with rfl | hx
      · exact hc
      · exact hb' x hx
    simp only at h
    split at h
    · rename_i r hr
      split at hr
      · rename_i u
        split at hr
        · rename_i v1 hv1
          split at hr
          · rename_i w hw
            obtain ⟨b1, x1, e1, hb1, hx1⟩ := kw_some hv1
            obtain ⟨b2, x2, e2, hb2, hx2⟩ := kw_some hr
            obtain ⟨b3, hb3, e3⟩ := lstrip_split v1
            right
            refine ⟨b, v, _, e, hb, hv, [c], [','], u, rfl, ?_, by decide, b1, x1, v1, e1, hb1, hx1, b3, "::".toList, w,
              ?_, hb3, by decide, b2, x2, r, e2, hb2, hx2, trivial⟩
            · intro x hx
              rw [List.mem_singleton.1 hx]; exact hc
            · rw [e3, hw]; simp
          · exact .inl (plain r hr)
        · exact .inl (plain r hr)
      · exact .inl (plain r hr)
    · cases h
  · cases h

theorem dummyStmt_iff (s : Str) : dummyStmt s = true ↔ ∃ a r, s = a ++ ',' :: r ∧ Begins ["intent".toList, ['(']] r := by
  induction s with
  | nil => simp [dummyStmt]
  | cons c s ih =>
    have one : intentParen s = true ↔ Begins ["intent".toList, ['(']] s := by
      unfold intentParen
      constructor
      · intro h
        split at h
        · rename_i r hk
          obtain ⟨b, v, e, hb, hv⟩ := kw_some hk
          obtain ⟨b', hb', e'⟩ := lstrip_split r
          cases hl : lstrip r with
          | nil => rw [hl] at h; cases h
          | cons d t =>
            rw [hl] at h
            have hd : d = '(' := by simpa using h
            refine ⟨b, v, r, e, hb, hv, b', ['('], t, ?_, hb', by decide, trivial⟩
            rw [e', hl, hd]; simp
        · cases h
      · rintro ⟨b, v, r, rfl, hb, hv, b', v', r', rfl, hb', hv', _⟩
        rw [kw_of hb hv ⟨_, _, rfl, by decide⟩]
        have : v' = ['('] := by
          cases v' with
          | nil => cases hv'
          | cons d v' =>
            rw [lower_cons] at hv'
            injection hv' with h1 h2
            have : d = '(' := (toLower_eq '(' (by decide) d).1 h1
            cases v' with
            | nil => rw [this]
            | cons => cases h2
        subst this
        simp only [List.append_assoc]
        rw [lstrip_blank hb']
        rfl
    rw [dummyStmt, Bool.or_eq_true, Bool.and_eq_true, ih, one]
    constructor
    · rintro (⟨h1, h2⟩ | ⟨a, r, rfl, h⟩)
      · exact ⟨[], s, by rw [beq_iff_eq.1 h1]; rfl, h2⟩
      · exact ⟨c :: a, r, rfl, h⟩
    · rintro ⟨a, r, e, h⟩
      cases a with
      | nil =>
        injection e with e1 e2
        subst e2
        exact .inl ⟨by rw [e1]; rfl, h⟩
      | cons d a =>
        injection e with e1 e2
        exact .inr ⟨a, r, e2, h⟩

/-- The state of the loop inside a subroutine. -/
def Plain (st : St) : Prop := st.seen = false ∧ st.insub = true

theorem Quiet.not_sub {s : Str} (h : Quiet s) : subStmt s = none := by
  refine Classical.byContradiction fun hn => ?_
  rcases subStmt_some hn with hb | ⟨p, hp, hb⟩
  · exact h.sub hb
  · exact h.presub p hp hb

theorem lstrip_nil {s : Str} (h : lstrip s = []) : Blank s := by
  obtain ⟨b, hb, e⟩ := lstrip_split s
  rw [h, List.append_nil] at e
  rw [e]; exact hb

/-- The statement leaves the state as it is. -/
theorem Quiet.step {s : Str} (h : Quiet s) (table : Str) (logger : Bool) (st : St) (hp : Plain st) :
    step table logger st s = some (.inl st) := by
  obtain ⟨h1, h2⟩ := hp
  have c1 : isContains s st.insub = false := Bool.eq_false_iff.2 fun hh => h.contains (isContains_begins hh)
  have c2 : argTable s = false := Bool.eq_false_iff.2 fun hh =>
    Exists.elim (argTable_begins hh) fun a ⟨b, e⟩ => h.marker a b e
  have c3 : endModule s = false := Bool.eq_false_iff.2 fun hh => h.endmod (endModule_begins hh)
  have c4 : endSub s = false := Bool.eq_false_iff.2 fun hh => h.endsub ((endSub_iff s).1 hh)
  have c5 : useStmt s = false := Bool.eq_false_iff.2 fun hh => (useStmt_begins hh).elim h.use.1 h.use.2
  obtain ⟨name, inpre, seen, insub, args⟩ := st
  simp only at h1 h2 c1
  subst h1 h2
  unfold FSub.step
  simp only [c1, c2, c3, c4, c5, h.not_sub, Bool.or_false, Bool.false_eq_true, if_false]
  cases inpre with
  | false => rfl
  | true =>
    simp only [if_true]
    cases hl : lstrip s with
    | nil => exact absurd (lstrip_nil hl) h.text
    | cons c t =>
      simp only [List.head?_cons]
      by_cases hc : c = '!'
      · rw [if_pos hc]
      · rw [if_neg hc]
        have : dummyStmt s = false := by
          refine Bool.eq_false_iff.2 fun hd => ?_
          rcases h.intent with hi | hi
          · obtain ⟨b, v, r, e, hb, hv, _⟩ := hi
            have hv1 : v = ['!'] := by
              cases v with
              | nil => cases hv
              | cons d v =>
                rw [lower_cons] at hv
                injection hv with h1 h2
                have : d = '!' := (toLower_eq '!' (by decide) d).1 h1
                cases v with
                | nil => rw [this]
                | cons => cases h2
            rw [e, hv1, List.append_assoc, lstrip_blank hb] at hl
            have h6 : lstrip (['!'] ++ r) = '!' :: r := lstrip_cons (by decide)
            rw [h6] at hl
            injection hl with hl _
            exact hc hl.symm
          · obtain ⟨a, r, e, hb⟩ := (dummyStmt_iff s).1 hd
            exact hi a r e hb
        rw [this]
        rfl

end Ccpp.FSub
