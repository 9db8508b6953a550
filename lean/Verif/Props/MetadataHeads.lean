import Verif.Props.MetadataMeaning
/-!
# Proofs for C62: headers of sections and tables
-/
namespace Ccpp.MF

open Ccpp.FDecl (Str)

theorem mem_valuesOf {α : Type} {es : List (Str × α)} {k : Str} {v : α} : v ∈ valuesOf es k ↔ (k, v) ∈ es := by
  unfold valuesOf
  rw [List.mem_filterMap]
  constructor
  · rintro ⟨e, he, h⟩
    split at h
    · rename_i hk; cases h; subst hk; exact he
    · cases h
  · intro h
    exact ⟨(k, v), h, by simp⟩

/-! ## Sections -/

/-- An entry allowed in the header of a section. -/
def SectEntry (e : Str × Str) : Prop :=
  e.1 ∈ ["name".toList, "type".toList, "module".toList, "process".toList] ∧
  (e.1 = "type".toList → e.2 ∈ headerTypes) ∧ (e.1 = "module".toList → e.2 ≠ "None".toList)

theorem sectProp_iff (e : Str × Str) (h h' : SectHead) :
    sectProp h e = some h' ↔ SectEntry e ∧
      h'.title = (if e.1 = "name".toList then some e.2 else none).or h.title ∧
      h'.type = (if e.1 = "type".toList then some e.2 else none).or h.type ∧
      h'.module = (if e.1 = "module".toList then some e.2 else none).or h.module ∧
      h'.process = (if e.1 = "process".toList then some e.2 else none).getD h.process := by
  obtain ⟨k, v⟩ := e
  obtain ⟨a, b, c, d⟩ := h
  obtain ⟨a', b', c', d'⟩ := h'
  have n1 : "name".toList ≠ "type".toList := by decide
  have n2 : "name".toList ≠ "module".toList := by decide
  have n3 : "name".toList ≠ "process".toList := by decide
  have n4 : "type".toList ≠ "module".toList := by decide
  have n5 : "type".toList ≠ "process".toList := by decide
  have n6 : "module".toList ≠ "process".toList := by decide
  unfold sectProp SectEntry
  simp only
  generalize hkn : "name".toList = kn at *
  generalize hkt : "type".toList = kt at *
  generalize hkm : "module".toList = km at *
  generalize hkp : "process".toList = kp at *
  generalize hty : headerTypes = tys at *
  generalize hno : "None".toList = no at *
  clear hkn hkt hkm hkp hty hno
  simp only [List.mem_cons, List.not_mem_nil, or_false]
  by_cases h1 : k = kn
  · subst h1
    simp [n1, n2, n3, eq_comm]
  by_cases h2 : k = kt
  · subst h2
    by_cases hv : v ∈ tys
    · simp [hv, n1.symm, n4, n5, eq_comm]
    · simp [hv, n1.symm]
  by_cases h3 : k = km
  · subst h3
    by_cases hv : v = no
    · simp [hv, n2.symm, n4.symm]
    · simp [hv, n2.symm, n4.symm, n6, eq_comm]
  by_cases h4 : k = kp
  · subst h4
    simp [n3.symm, n5.symm, n6.symm, eq_comm]
  · simp [h1, h2, h3, h4]

theorem sectProps_iff (es : List (Str × Str)) (h h' : SectHead) :
    sectProps h es = some h' ↔ (∀ e ∈ es, SectEntry e) ∧
      h'.title = (lastValue es "name".toList).or h.title ∧ h'.type = (lastValue es "type".toList).or h.type ∧
      h'.module = (lastValue es "module".toList).or h.module ∧
      h'.process = (lastValue es "process".toList).getD h.process := by
  induction es generalizing h with
  | nil =>
    rw [sectProps]
    obtain ⟨a, b, c, d⟩ := h
    obtain ⟨a', b', c', d'⟩ := h'
    simp only [lastValue_nil, Option.or, Option.some.injEq, SectHead.mk.injEq]
    constructor
    · rintro ⟨rfl, rfl, rfl, rfl⟩; simp
    · rintro ⟨_, rfl, rfl, rfl, rfl⟩; simp
  | cons e es ih =>
    rw [sectProps, Option.bind_eq_some_iff]
    simp only [lastValue_cons, Option.or_assoc]
    have hgetD : ∀ (x y : Option Str) (z : Str), (x.or y).getD z = x.getD (y.getD z) := by
      intro x y z; cases x <;> rfl
    rw [hgetD]
    constructor
    · rintro ⟨h1, ha, hb⟩
      obtain ⟨a1, a2, a3, a4, a5⟩ := (sectProp_iff e h h1).1 ha
      obtain ⟨b1, b2, b3, b4, b5⟩ := (ih h1).1 hb
      rw [← a2, ← a3, ← a4, ← a5]
      refine ⟨?_, b2, b3, b4, b5⟩
      intro x hx
      rcases List.mem_cons.1 hx with rfl | hx
      · exact a1
      · exact b1 x hx
    · rintro ⟨c1, c2, c3, c4, c5⟩
      refine ⟨⟨_, _, _, _⟩, (sectProp_iff e h _).2 ⟨c1 e (by simp), rfl, rfl, rfl, rfl⟩, (ih _).2 ⟨fun x hx => c1 x (by simp [hx]), c2, c3, c4, c5⟩⟩

theorem matchesTable_iff (title type : Str) (tname ttype : Option Str) :
    matchesTable title type tname ttype = true ↔ ttype = some type ∧
      ∃ n, tname = some n ∧ if type = "scheme".toList then PhaseOf title n else title = n := by
  unfold matchesTable
  simp only [Bool.and_eq_true, beq_iff_eq]
  refine and_congr Iff.rfl ?_
  by_cases hs : type = "scheme".toList
  · simp only [hs, if_true]
    unfold PhaseOf
    cases hm : SM.functionMatch SM.ccppMachine title with
    | none =>
      have hno := (SM.functionMatch_none_iff title).1 hm
      constructor
      · intro h; exact ⟨title, h, .inr ⟨rfl, hno⟩⟩
      · rintro ⟨n, h, ⟨suf, ph, hr, _⟩ | ⟨rfl, _⟩⟩
        · exact absurd hr (hno _ _ _)
        · exact h
    | some r =>
      obtain ⟨p, f, ph⟩ := r
      have hsome := (SM.C04_function_match title p f ph).1 hm
      constructor
      · intro h; exact ⟨p, h, .inl ⟨f, ph, hsome.1, hsome.2⟩⟩
      · rintro ⟨n, h, ⟨suf, ph', hr, hmax⟩ | ⟨rfl, hno⟩⟩
        · have := (SM.C04_function_match title n suf ph').2 ⟨hr, hmax⟩
          rw [this] at hm
          cases hm
          exact h
        · exact absurd hsome.1 (hno _ _ _)
  · simp only [hs, if_false]
    constructor
    · intro h; exact ⟨title, h, rfl⟩
    · rintro ⟨n, h, rfl⟩; exact h

/-! ## Tables -/

/-- An entry allowed in the header of a table. -/
def TableEntry (e : Str × Str) : Prop :=
  e.1 ∈ ["name".toList, "type".toList, "dependencies".toList, "relative_path".toList] ∧
  (e.1 = "type".toList → e.2 ∈ tableTypes)

/-- The effect of all of them. -/
def depFold : Option (List Str) → List Str → Option (Option (List Str))
  | d, [] => some d
  | d, v :: vs => (depStep d v).bind fun d' => depFold d' vs

theorem tableProp_iff (e : Str × Str) (h h' : TableHead) :
    tableProp h e = some h' ↔ TableEntry e ∧
      h'.name = (if e.1 = "name".toList then some e.2 else none).or h.name ∧
      h'.type = (if e.1 = "type".toList then some e.2 else none).or h.type ∧
      h'.path = (if e.1 = "relative_path".toList then some e.2 else none).or h.path ∧
      depFold h.deps (if e.1 = "dependencies".toList then [e.2] else []) = some h'.deps := by
  obtain ⟨k, v⟩ := e
  obtain ⟨a, b, c, d⟩ := h
  obtain ⟨a', b', c', d'⟩ := h'
  have n1 : "name".toList ≠ "type".toList := by decide
  have n2 : "name".toList ≠ "dependencies".toList := by decide
  have n3 : "name".toList ≠ "relative_path".toList := by decide
  have n4 : "type".toList ≠ "dependencies".toList := by decide
  have n5 : "type".toList ≠ "relative_path".toList := by decide
  have n6 : "dependencies".toList ≠ "relative_path".toList := by decide
  unfold tableProp TableEntry
  simp only
  generalize hkn : "name".toList = kn at *
  generalize hkt : "type".toList = kt at *
  generalize hkm : "dependencies".toList = km at *
  generalize hkp : "relative_path".toList = kp at *
  generalize hty : tableTypes = tys at *
  clear hkn hkt hkm hkp hty
  simp only [List.mem_cons, List.not_mem_nil, or_false]
  by_cases h1 : k = kn
  · subst h1
    simp [n1, n2, n3, depFold, eq_comm]
    intro _ _; exact and_comm
  by_cases h2 : k = kt
  · subst h2
    by_cases hv : v ∈ tys
    · simp [hv, n1.symm, n4, n5, depFold, eq_comm]
      intro _ _; exact and_comm
    · simp [hv, n1.symm]
  by_cases h3 : k = km
  · subst h3
    cases hd : depStep c v with
    | none => simp [n2.symm, n4.symm, n6, depFold, hd]
    | some x =>
      simp [n2.symm, n4.symm, n6, depFold, hd, eq_comm]
      intro _ _; exact and_comm
  by_cases h4 : k = kp
  · subst h4
    simp [n3.symm, n5.symm, n6.symm, depFold, eq_comm]
    intro _ _; exact and_comm
  · simp [h1, h2, h3, h4]

theorem depFold_append (vs ws : List Str) : ∀ d, depFold d (vs ++ ws) = (depFold d vs).bind fun d' => depFold d' ws := by
  induction vs with
  | nil => intro d; rfl
  | cons v vs ih =>
    intro d
    rw [List.cons_append, depFold, depFold]
    cases depStep d v with
    | none => rfl
    | some d' => exact ih d'

theorem tableProps_iff (es : List (Str × Str)) (h h' : TableHead) :
    tableProps h es = some h' ↔ (∀ e ∈ es, TableEntry e) ∧
      h'.name = (lastValue es "name".toList).or h.name ∧ h'.type = (lastValue es "type".toList).or h.type ∧
      h'.path = (lastValue es "relative_path".toList).or h.path ∧
      depFold h.deps (valuesOf es "dependencies".toList) = some h'.deps := by
  induction es generalizing h with
  | nil =>
    rw [tableProps]
    obtain ⟨a, b, c, d⟩ := h
    obtain ⟨a', b', c', d'⟩ := h'
    simp only [lastValue_nil, Option.or, Option.some.injEq, TableHead.mk.injEq]
    have : valuesOf ([] : List (Str × Str)) "dependencies".toList = [] := rfl
    rw [this, depFold, Option.some.injEq]
    constructor
    · rintro ⟨rfl, rfl, rfl, rfl⟩; simp
    · rintro ⟨_, rfl, rfl, rfl, rfl⟩; simp
  | cons e es ih =>
    rw [tableProps, Option.bind_eq_some_iff]
    simp only [lastValue_cons, Option.or_assoc, valuesOf_cons, depFold_append]
    rw [Option.bind_eq_some_iff]
    constructor
    · rintro ⟨h1, ha, hb⟩
      obtain ⟨a1, a2, a3, a4, a5⟩ := (tableProp_iff e h h1).1 ha
      obtain ⟨b1, b2, b3, b4, b5⟩ := (ih h1).1 hb
      rw [← a2, ← a3, ← a4]
      refine ⟨?_, b2, b3, b4, _, a5, b5⟩
      intro x hx
      rcases List.mem_cons.1 hx with rfl | hx
      · exact a1
      · exact b1 x hx
    · rintro ⟨c1, c2, c3, c4, d1, c5, c6⟩
      refine ⟨⟨_, _, d1, _⟩, (tableProp_iff e h _).2 ⟨c1 e (by simp), rfl, rfl, rfl, c5⟩,
        (ih _).2 ⟨fun x hx => c1 x (by simp [hx]), c2, c3, c4, c6⟩⟩

theorem depItems_eq (v : Str) : depItems v = ((Chk.splitOn ',' v).map strip).filter (· ≠ []) := by
  unfold depItems
  rw [List.filter_map]
  rfl

theorem depItems_nil (v : Str) : depItems v = [] ↔ ∀ x ∈ Chk.splitOn ',' v, strip x = [] := by
  rw [depItems_eq, List.filter_eq_nil_iff]
  simp

theorem depFold_none (vs : List Str) (r : Option (List Str)) :
    depFold none vs = some r ↔ (∀ v ∈ vs, lower v = "none".toList) ∧ r = none := by
  induction vs with
  | nil => simp [depFold, eq_comm]
  | cons v vs ih =>
    rw [depFold]
    by_cases hv : lower v = "none".toList
    · have : depStep none v = some none := by unfold depStep; rw [if_pos hv]
      rw [this, Option.bind_some, ih]
      simp only [List.mem_cons, forall_eq_or_imp, hv, true_and]
    · have : depStep none v = none := by unfold depStep; rw [if_neg hv]
      rw [this]
      constructor
      · intro h; cases h
      · rintro ⟨h, _⟩; exact absurd (h v (by simp)) hv

theorem depFold_some (vs : List Str) (acc : List Str) (r : Option (List Str)) :
    depFold (some acc) vs = some r ↔
      ((∀ v ∈ vs, lower v ≠ "none".toList) ∧ r = some (acc ++ vs.flatMap depItems)) ∨
      (∃ as bs, vs = as ++ bs ∧ (∀ v ∈ as, lower v ≠ "none".toList ∧ depItems v = []) ∧ bs ≠ [] ∧
        (∀ v ∈ bs, lower v = "none".toList) ∧ acc = [] ∧ r = none) := by
  induction vs generalizing acc with
  | nil =>
    rw [depFold]
    constructor
    · intro h; cases h; exact .inl ⟨by simp, by simp⟩
    · rintro (⟨_, rfl⟩ | ⟨as, bs, h, _, hb, _⟩)
      · simp
      · have := (List.append_eq_nil_iff.1 h.symm).2
        exact absurd this hb
  | cons v vs ih =>
    rw [depFold]
    by_cases hv : lower v = "none".toList
    · cases acc with
      | cons x acc =>
        have : depStep (some (x :: acc)) v = none := by unfold depStep; rw [if_pos hv]
        rw [this]
        constructor
        · intro h; cases h
        · rintro (⟨h, _⟩ | ⟨_, _, _, _, _, _, h, _⟩)
          · exact absurd hv (h v (by simp))
          · cases h
      | nil =>
        have : depStep (some []) v = some none := by unfold depStep; rw [if_pos hv]
        rw [this, Option.bind_some, depFold_none]
        constructor
        · rintro ⟨h, rfl⟩
          refine .inr ⟨[], v :: vs, rfl, by simp, by simp, ?_, rfl, rfl⟩
          intro x hx
          rcases List.mem_cons.1 hx with rfl | hx
          · exact hv
          · exact h x hx
        · rintro (⟨h, _⟩ | ⟨as, bs, h, ha, hb, hb2, _, rfl⟩)
          · exact absurd hv (h v (by simp))
          · cases as with
            | cons a as =>
              injection h with h1 _
              subst h1
              exact absurd hv (ha v (by simp)).1
            | nil =>
              rw [List.nil_append] at h
              subst h
              exact ⟨fun x hx => hb2 x (by simp [hx]), rfl⟩
    · have : depStep (some acc) v = some (some (acc ++ depItems v)) := by unfold depStep; rw [if_neg hv]
      rw [this, Option.bind_some, ih]
      constructor
      · rintro (⟨h, rfl⟩ | ⟨as, bs, rfl, ha, hb, hb2, hacc, rfl⟩)
        · refine .inl ⟨?_, by simp⟩
          intro x hx
          rcases List.mem_cons.1 hx with rfl | hx
          · exact hv
          · exact h x hx
        · obtain ⟨h1, h2⟩ := List.append_eq_nil_iff.1 hacc
          refine .inr ⟨v :: as, bs, rfl, ?_, hb, hb2, h1, rfl⟩
          intro x hx
          rcases List.mem_cons.1 hx with rfl | hx
          · exact ⟨hv, h2⟩
          · exact ha x hx
      · rintro (⟨h, rfl⟩ | ⟨as, bs, h, ha, hb, hb2, rfl, rfl⟩)
        · exact .inl ⟨fun x hx => h x (by simp [hx]), by simp⟩
        · cases as with
          | nil =>
            rw [List.nil_append] at h
            subst h
            exact absurd (hb2 v (by simp)) hv
          | cons a as =>
            injection h with h1 h2
            subst h1 h2
            exact .inr ⟨as, bs, rfl, fun x hx => ha x (by simp [hx]), hb, hb2, by simp [(ha v (by simp)).2], rfl⟩

theorem depsMean_iff (vs ds : List Str) :
    DepsMean vs ds ↔ ∃ r, depFold (some []) vs = some r ∧ ds = r.getD [] := by
  have hfm : ∀ vs : List Str, vs.flatMap depItems = vs.flatMap fun v => ((Chk.splitOn ',' v).map strip).filter (· ≠ []) := by
    intro vs
    have : depItems = fun v => ((Chk.splitOn ',' v).map strip).filter (· ≠ []) := funext depItems_eq
    rw [this]
  constructor
  · rintro (h | ⟨h1, h2, h3⟩)
    · exact ⟨_, (depFold_some _ _ _).2 (.inl ⟨h, rfl⟩), by rw [List.nil_append, hfm]; rfl⟩
    · exact ⟨none, (depFold_some _ _ _).2 (.inr ⟨_, _, rfl, fun v hv => ⟨(h1 v hv).1, (depItems_nil v).2 (h1 v hv).2⟩, h2, h3,
        rfl, rfl⟩), rfl⟩
  · rintro ⟨r, h, rfl⟩
    rcases (depFold_some _ _ _).1 h with ⟨h1, rfl⟩ | ⟨as, bs, rfl, h1, h2, h3, _, rfl⟩
    · have := DepsMean.items h1
      rw [← hfm] at this
      rwa [List.nil_append]
    · exact .nothing (fun v hv => ⟨(h1 v hv).1, (depItems_nil v).1 (h1 v hv).2⟩) h2 h3

end Ccpp.MF
