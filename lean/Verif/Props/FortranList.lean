import Verif.Model.FortranDecl
import Verif.Spec.FortranDecl
import Verif.Props.Checkers
/-!
# C58: attribute and variable lists are split at their top-level commas
-/
namespace Ccpp.FDecl

open Ccpp.Chk (balance)

theorem balance_append (a b : Str) : balance (a ++ b) = balance a + balance b := by
  simp only [balance, List.count_append]; omega

theorem balance_comma (a : Str) : balance (',' :: a) = balance a := by
  simp [balance]

theorem count_eq_iff (s : Str) : s.count '(' = s.count ')' ↔ balance s = 0 := by
  unfold balance; omega

theorem commaJoin_cons {t : Str} {ts : List Str} (h : ts ≠ []) : commaJoin (t :: ts) = t ++ ',' :: commaJoin ts := by
  cases ts with
  | nil => exact absurd rfl h
  | cons a l => rfl

theorem splitOn_join_eq (s : Str) : commaJoin (Chk.splitOn ',' s) = s ∧ Chk.splitOn ',' s ≠ [] ∧
    ∀ p ∈ Chk.splitOn ',' s, ',' ∉ p := by
  induction s with
  | nil => simp [Chk.splitOn, commaJoin]
  | cons c s ih =>
    obtain ⟨h1, h2, h3⟩ := ih
    unfold Chk.splitOn
    by_cases hc : c = ','
    · rw [if_pos hc, commaJoin_cons h2, h1, hc]
      exact ⟨rfl, by simp, by simpa using h3⟩
    · rw [if_neg hc]
      cases hs : Chk.splitOn ',' s with
      | nil => exact absurd hs h2
      | cons t ts =>
        rw [hs] at h1 h3
        refine ⟨?_, by simp, ?_⟩
        · cases ts with
          | nil => simp only [commaJoin] at h1 ⊢; rw [h1]
          | cons a l => simp only [commaJoin] at h1 ⊢; rw [← h1]; rfl
        · intro p hp
          rcases List.mem_cons.1 hp with rfl | hp
          · intro h
            rcases List.mem_cons.1 h with h | h
            · exact hc h.symm
            · exact h3 t List.mem_cons_self h
          · exact h3 p (List.mem_cons_of_mem _ hp)

theorem items_cons (r : Str) (raw : List Str) :
    items (r :: raw) = if strip r = [] then items raw else strip r :: items raw := by
  unfold items
  rw [List.map_cons, List.filter_cons]
  by_cases h : strip r = [] <;> simp [h]

/-- What the loop computes, from a current item in which no comma is top-level. -/
theorem reassembleFrom_spec (ps : List Str) : ∀ (var : Str),
    (∀ a b, var = a ++ ',' :: b → balance a ≠ 0) → (∀ p ∈ ps, ',' ∉ p) →
    (∀ out, reassembleFrom var ps = some out → ∃ raw, Parts (commaJoin (var :: ps)) raw ∧ out = items raw) ∧
    (reassembleFrom var ps = none → balance (commaJoin (var :: ps)) ≠ 0) := by
  induction ps with
  | nil =>
    intro var hv _
    unfold reassembleFrom
    simp only [ne_eq, count_eq_iff]
    by_cases hb : balance var = 0
    · simp only [hb, not_true_eq_false, if_false, Option.some.injEq, reduceCtorEq, false_implies, and_true]
      rintro out rfl
      refine ⟨[var], ⟨by simp, rfl, by simpa using hb, by simpa [TopLevel] using hv⟩, ?_⟩
      rw [items_cons]
      rfl
    · simp only [hb, not_false_eq_true, if_true, reduceCtorEq, false_implies, implies_true, true_and]

      simpa [commaJoin] using hb
  | cons p ps ih =>
    intro var hv hps
    have hp : ',' ∉ p := hps p List.mem_cons_self
    have hps' : ∀ q ∈ ps, ',' ∉ q := fun q hq => hps q (List.mem_cons_of_mem _ hq)
    have hpp : ∀ a b, p = a ++ ',' :: b → balance a ≠ 0 := by
      intro a b e; exact absurd (e ▸ by simp) hp
    unfold reassembleFrom
    simp only [ne_eq, count_eq_iff]
    by_cases hb : balance var = 0
    · simp only [hb, not_true_eq_false, if_false]
      obtain ⟨h1, h2⟩ := ih p hpp hps'
      constructor
      · intro out ho
        cases hr : reassembleFrom p ps with
        | none => rw [hr] at ho; cases ho
        | some l =>
          rw [hr] at ho
          simp only [Option.map_some, Option.some.injEq] at ho
          obtain ⟨raw, hraw, rfl⟩ := h1 l hr
          refine ⟨var :: raw, ⟨by simp, ?_, ?_, ?_⟩, ?_⟩
          · rw [commaJoin_cons hraw.ne, commaJoin_cons (by simp), hraw.join]
          · intro r hr
            rcases List.mem_cons.1 hr with rfl | hr
            · exact hb
            · exact hraw.closed r hr
          · intro r hr
            rcases List.mem_cons.1 hr with rfl | hr
            · exact hv
            · exact hraw.whole r hr
          · rw [items_cons, ← ho]
      · intro hn
        cases hr : reassembleFrom p ps with
        | some l => rw [hr] at hn; cases hn
        | none =>
          rw [commaJoin_cons (by simp), balance_append, balance_comma, hb, Int.zero_add]
          exact h2 hr
    · simp only [hb, not_false_eq_true, if_true]
      have hv' : ∀ a b, var ++ ',' :: p = a ++ ',' :: b → balance a ≠ 0 := by
        intro a b e
        rcases List.append_eq_append_iff.1 e with ⟨a', e1, e2⟩ | ⟨c', e1, e2⟩
        · cases a' with
          | nil => rw [List.append_nil] at e1; rw [e1]; exact hb
          | cons x a' =>
            rw [List.cons_append] at e2
            injection e2 with _ e2
            exact absurd (e2 ▸ by simp) hp
        · cases c' with
          | nil => rw [List.append_nil] at e1; rw [← e1]; exact hb
          | cons x c' =>
            rw [List.cons_append] at e2
            injection e2 with ex e2
            subst ex
            exact hv a c' e1
      obtain ⟨h1, h2⟩ := ih (var ++ ',' :: p) hv' hps'
      have e : commaJoin ((var ++ ',' :: p) :: ps) = commaJoin (var :: p :: ps) := by
        cases ps with
        | nil => simp [commaJoin]
        | cons q ps => simp [commaJoin]
      rw [e] at h1 h2
      exact ⟨h1, h2⟩

theorem balance_commaJoin (raw : List Str) (h : ∀ r ∈ raw, balance r = 0) : balance (commaJoin raw) = 0 := by
  induction raw with
  | nil => rfl
  | cons r raw ih =>
    cases raw with
    | nil => exact h r List.mem_cons_self
    | cons a l =>
      rw [commaJoin_cons (by simp), balance_append, balance_comma, h r List.mem_cons_self,
        ih fun x hx => h x (List.mem_cons_of_mem _ hx)]
      rfl

/-- **C58**: the parts between top-level commas are unique. -/
theorem C58_unique {s : Str} {raw raw' : List Str} (h : Parts s raw) (h' : Parts s raw') : raw = raw' := by
  have main : ∀ (raw raw' : List Str), raw ≠ [] → raw' ≠ [] → commaJoin raw = commaJoin raw' →
      (∀ r ∈ raw, balance r = 0) → (∀ r ∈ raw', balance r = 0) →
      (∀ r ∈ raw, ∀ a b, r = a ++ ',' :: b → balance a ≠ 0) →
      (∀ r ∈ raw', ∀ a b, r = a ++ ',' :: b → balance a ≠ 0) → raw = raw' := by
    intro raw
    induction raw with
    | nil => intro _ h; exact absurd rfl h
    | cons r raw ih =>
      intro raw' _ hne' he hb hb' hw hw'
      cases raw' with
      | nil => exact absurd rfl hne'
      | cons r' raw' =>
        have key : ∀ (x y : Str) (u v : Str), balance x = 0 → balance y = 0 →
            (∀ a b, y = a ++ ',' :: b → balance a ≠ 0) → (∀ a b, x = a ++ ',' :: b → balance a ≠ 0) →
            x ++ ',' :: u = y ++ ',' :: v → x = y ∧ u = v := by
          intro x y u v hx hy hyw hxw e
          rcases List.append_eq_append_iff.1 e with ⟨a', e1, e2⟩ | ⟨c', e1, e2⟩
          · cases a' with
            | nil => simp at e1 e2; exact ⟨e1.symm, e2⟩
            | cons z a' =>
              rw [List.cons_append] at e2; injection e2 with ez e2; subst ez
              exact absurd hx (hyw x a' e1)
          · cases c' with
            | nil => simp at e1 e2; exact ⟨e1, e2.symm⟩
            | cons z c' =>
              rw [List.cons_append] at e2; injection e2 with ez e2; subst ez
              exact absurd hy (hxw y c' e1)
        have hbr := hb r List.mem_cons_self
        have hbr' := hb' r' List.mem_cons_self
        have hwr := hw r List.mem_cons_self
        have hwr' := hw' r' List.mem_cons_self
        cases raw with
        | nil =>
          cases raw' with
          | nil => simp only [commaJoin] at he; rw [he]
          | cons a l =>
            rw [commaJoin_cons (t := r') (by simp)] at he
            exact absurd hbr' (hwr r' _ he)
        | cons a l =>
          cases raw' with
          | nil =>
            rw [commaJoin_cons (t := r) (by simp)] at he
            exact absurd hbr (hwr' r _ he.symm)
          | cons a' l' =>
            rw [commaJoin_cons (t := r) (by simp), commaJoin_cons (t := r') (by simp)] at he
            obtain ⟨e1, e2⟩ := key r r' _ _ hbr hbr' hwr' hwr he
            have := ih (a' :: l') (by simp) (by simp) e2 (fun x hx => hb x (List.mem_cons_of_mem _ hx))
              (fun x hx => hb' x (List.mem_cons_of_mem _ hx)) (fun x hx => hw x (List.mem_cons_of_mem _ hx))
              (fun x hx => hw' x (List.mem_cons_of_mem _ hx))
            rw [e1, this]
  exact main raw raw' h.ne h'.ne (h.join.symm.trans h'.join) h.closed h'.closed h.whole h'.whole

/-- **C58**: a list is split into its items exactly at the top-level commas. -/
theorem C58_items (s : Str) (out : List Str) :
    reassemble s = some out ↔ ∃ raw, Parts s raw ∧ out = items raw := by
  obtain ⟨h1, h2, h3⟩ := splitOn_join_eq s
  unfold reassemble
  cases hs : Chk.splitOn ',' s with
  | nil => exact absurd hs h2
  | cons p ps =>
    rw [hs] at h1 h3
    obtain ⟨g1, g2⟩ := reassembleFrom_spec ps p
      (fun a b e => absurd (e ▸ by simp) (h3 p List.mem_cons_self))
      (fun q hq => h3 q (List.mem_cons_of_mem _ hq))
    rw [h1] at g1 g2
    simp only
    refine ⟨g1 out, ?_⟩
    rintro ⟨raw, hr, rfl⟩
    cases hc : reassembleFrom p ps with
    | none =>
      have := g2 hc
      rw [hr.join] at this
      exact absurd (balance_commaJoin raw hr.closed) this
    | some out =>
      obtain ⟨raw', hr', rfl⟩ := g1 out hc
      rw [C58_unique hr hr']

/-- **C58**: a list is refused exactly when its parentheses do not balance. -/
theorem C58_refused (s : Str) : reassemble s = none ↔ balance s ≠ 0 := by
  obtain ⟨h1, h2, h3⟩ := splitOn_join_eq s
  constructor
  · unfold reassemble
    cases hs : Chk.splitOn ',' s with
    | nil => exact absurd hs h2
    | cons p ps =>
      rw [hs] at h1 h3
      obtain ⟨_, g2⟩ := reassembleFrom_spec ps p
        (fun a b e => absurd (e ▸ by simp) (h3 p List.mem_cons_self))
        (fun q hq => h3 q (List.mem_cons_of_mem _ hq))
      rw [h1] at g2
      exact g2
  · intro hb
    cases hr : reassemble s with
    | none => rfl
    | some out =>
      obtain ⟨raw, h, _⟩ := (C58_items s out).1 hr
      exact absurd (h.join ▸ balance_commaJoin raw h.closed) hb

/-- **C58**: no item is lost, changed or split if it is written with balanced parentheses and its commas
are in parentheses. -/
theorem C58_roundtrip (raw : List Str) (hne : raw ≠ []) (hb : ∀ r ∈ raw, balance r = 0)
    (hw : ∀ r ∈ raw, ∀ a b, r = a ++ ',' :: b → ¬ TopLevel a) :
    reassemble (commaJoin raw) = some (items raw) :=
  (C58_items _ _).2 ⟨raw, ⟨hne, rfl, hb, hw⟩, rfl⟩

/-- Commas and parentheses in character literals are not ignored: a literal with a comma is torn apart, a
literal with a parenthesis is an error; and a closing parenthesis before its opening one is accepted. -/
theorem C58_violated :
    reassemble "s = 'a,b', t".toList = some ["s = 'a".toList, "b'".toList, "t".toList] ∧
    reassemble "s = '(', t".toList = none ∧
    reassemble "a), b(".toList = some ["a), b(".toList] := by decide

/-- Non-trivial instance: the docstring's example. -/
example : reassemble "dimension(size(Grid%xlon,1),NSPC1),  intent(in)".toList =
    some ["dimension(size(Grid%xlon,1),NSPC1)".toList, "intent(in)".toList] := by decide

end Ccpp.FDecl
