import Verif.Spec.KindsFile
import Verif.Props.FrameworkEnv
/-!
# C108: the kinds module and the comparison of kinds
-/
namespace Ccpp.KF

theorem name_noBlank {k : Str} (h : Chk.IsName k) : ' ' ∉ k := by
  obtain ⟨c, cs, rfl, hc, hs⟩ := h
  intro hm
  rcases List.mem_cons.1 hm with rfl | hm
  · exact absurd hc (by decide)
  · rcases hs _ hm with h | h
    · exact absurd h (by decide)
    · exact absurd h (by decide)

theorem cut {c : Char} : ∀ {a b x y : Str}, c ∉ a → c ∉ b → a ++ c :: x = b ++ c :: y → a = b ∧ x = y
  | [], [], x, y, _, _, h => ⟨rfl, by simpa using h⟩
  | [], d :: b, x, y, _, hb, h => by
    simp only [List.nil_append, List.cons_append, List.cons.injEq] at h
    exact absurd (by rw [← h.1]; exact .head _) hb
  | d :: a, [], x, y, ha, _, h => by
    simp only [List.nil_append, List.cons_append, List.cons.injEq] at h
    exact absurd (by rw [h.1]; exact .head _) ha
  | d :: a, e :: b, x, y, ha, hb, h => by
    simp only [List.cons_append, List.cons.injEq] at h
    obtain ⟨g1, g2⟩ := cut (fun h => ha (.tail _ h)) (fun h => hb (.tail _ h)) h.2
    exact ⟨by rw [h.1, g1], g2⟩

theorem renames_unique {l k sp k' sp' : Str} (h : Renames l k sp) (h' : Renames l k' sp') : k = k' ∧ sp = sp' := by
  obtain ⟨a1, _, e⟩ := h
  obtain ⟨b1, _, e'⟩ := h'
  rw [e] at e'
  simp only [List.append_assoc, List.append_cancel_left_eq] at e'
  obtain ⟨g1, g2⟩ := cut (c := ' ') (x := "=> ".toList ++ sp) (y := "=> ".toList ++ sp') (name_noBlank a1) (name_noBlank b1) e'
  exact ⟨g1, List.append_cancel_left g2⟩

theorem spec_mem {d : List (Str × Str)} (hd : (d.map (·.1)).Nodup) {k sp : Str} : Env.kindSpec d k = some sp ↔ (k, sp) ∈ d := by
  unfold Env.kindSpec Env.get
  induction d with
  | nil => simp
  | cons p d ih =>
    rw [List.map_cons, List.nodup_cons] at hd
    rw [List.find?_cons]
    by_cases h : p.1 = k
    · subst h
      simp only [beq_self_eq_true, Option.map_some, Option.some.injEq, List.mem_cons]
      constructor
      · rintro rfl; exact .inl rfl
      · rintro (h | h)
        · rw [← h]
        · exact absurd (List.mem_map_of_mem (f := (·.1)) h) hd.1
    · rw [beq_false_of_ne h]
      simp only [List.mem_cons]
      rw [ih hd.2]
      constructor
      · exact .inr
      · rintro (e | e)
        · exact absurd (by rw [← e]) h
        · exact e

theorem spec_none {d : List (Str × Str)} {k : Str} : Env.kindSpec d k = none ↔ ∀ p ∈ d, p.1 ≠ k := by
  unfold Env.kindSpec Env.get
  simp

/-- What is needed of the kinds: different names, ignoring case; names and entities are Fortran names. -/
structure Fine (d : List (Str × Str)) : Prop where
  keys : (d.map fun p => lower p.1).Nodup
  names : ∀ p ∈ d, Chk.IsName p.1 ∧ Chk.IsName p.2

theorem Fine.nodup {d : List (Str × Str)} (h : Fine d) : (d.map (·.1)).Nodup :=
  List.pairwise_map.2 ((List.pairwise_map.1 h.keys).imp fun h e => h (congrArg lower e))

theorem inj_of {α β : Type} {f : α → β} : ∀ {l : List α}, (l.map f).Nodup → ∀ {p q : α}, p ∈ l → q ∈ l → f p = f q → p = q
  | a :: l, h, p, q, hp, hq, e => by
    rw [List.map_cons, List.nodup_cons] at h
    rcases List.mem_cons.1 hp with e1 | h1 <;> rcases List.mem_cons.1 hq with e2 | h2
    · rw [e1, e2]
    · exact absurd (by rw [← e1, e]; exact List.mem_map_of_mem h2) h.1
    · exact absurd (by rw [← e2, ← e]; exact List.mem_map_of_mem h1) h.1
    · exact inj_of h.2 h1 h2 e

theorem Fine.same {d : List (Str × Str)} (h : Fine d) {p q : Str × Str} (hp : p ∈ d) (hq : q ∈ d) (e : lower p.1 = lower q.1) : p = q :=
  inj_of h.keys hp hq e

theorem uses_iff {d : List (Str × Str)} (h : Fine d) {l : Str} : l ∈ (file d).uses ↔ ∃ p ∈ d, Renames l p.1 p.2 := by
  have line : ∀ p ∈ d, "use ISO_FORTRAN_ENV, only: ".toList ++ p.1 ++ " => ".toList ++ (Env.kindSpec d p.1).getD "None".toList =
      "use ISO_FORTRAN_ENV, only: ".toList ++ p.1 ++ " => ".toList ++ p.2 := by
    intro p hp
    rw [(spec_mem h.nodup).2 hp]
    rfl
  simp only [file, Env.kindTypes, List.map_map, List.mem_map, Function.comp]
  constructor
  · rintro ⟨p, hp, rfl⟩
    exact ⟨p, hp, (h.names p hp).1, (h.names p hp).2, line p hp⟩
  · rintro ⟨p, hp, _, _, rfl⟩
    exact ⟨p, hp, line p hp⟩

theorem renames_iff {d : List (Str × Str)} (h : Fine d) {k sp : Str} : (∃ l ∈ (file d).uses, Renames l k sp) ↔ (k, sp) ∈ d := by
  constructor
  · rintro ⟨l, hl, hr⟩
    obtain ⟨p, hp, hr'⟩ := (uses_iff h).1 hl
    obtain ⟨rfl, rfl⟩ := renames_unique hr hr'
    exact hp
  · intro hp
    have hr : Renames ("use ISO_FORTRAN_ENV, only: ".toList ++ k ++ " => ".toList ++ sp) k sp := ⟨(h.names _ hp).1, (h.names _ hp).2, rfl⟩
    exact ⟨_, (uses_iff h).2 ⟨_, hp, hr⟩, hr⟩

theorem publics_iff {d : List (Str × Str)} {k : Str} : "public :: ".toList ++ k ∈ (file d).publics ↔ ∃ p ∈ d, p.1 = k := by
  simp only [file, Env.kindTypes, List.map_map, List.mem_map, Function.comp, List.append_cancel_left_eq]

/-- What the module exports: each kind with the value of its entity. -/
theorem exports_iff {iso : Str → Option Int} {d : List (Str × Str)} (h : Fine d) (n : Str) (v : Int) :
    Exports iso (file d) n v ↔ ∃ k sp, (k, sp) ∈ d ∧ lower k = n ∧ iso (lower sp) = some v := by
  constructor
  · rintro ⟨_, l, hl, k, sp, hr, hk, hv⟩
    exact ⟨k, sp, (renames_iff h).1 ⟨l, hl, hr⟩, hk, hv⟩
  · rintro ⟨k, sp, hp, hk, hv⟩
    obtain ⟨l, hl, hr⟩ := (renames_iff h).2 hp
    exact ⟨⟨_, publics_iff.2 ⟨_, hp, rfl⟩, k, rfl, hk⟩, l, hl, k, sp, hr, hk, hv⟩

/-- The kinds module is legal and exports exactly the kinds, each with the value of its entity, if the entities are those of ISO_FORTRAN_ENV and
the names differ, ignoring case (missing: `C108_spec_violated`, `C108_case_violated`). -/
theorem C108_partial {iso : Str → Option Int} {d : List (Str × Str)} (h : Fine d) (hi : ∀ p ∈ d, (iso (lower p.2)).isSome = true) :
    Legal iso (file d) ∧
      ∀ n v, Exports iso (file d) n v ↔ ∃ k sp, (k, sp) ∈ d ∧ lower k = n ∧ iso (lower sp) = some v := by
  refine ⟨⟨?_, ?_, ?_⟩, exports_iff h⟩
  · intro l hl
    obtain ⟨p, hp, hr⟩ := (uses_iff h).1 hl
    exact ⟨p.1, p.2, hr, hi p hp⟩
  · intro l hl m hm k sp k' sp' hr hr' e
    have h1 := (renames_iff h).1 ⟨l, hl, hr⟩
    have h2 := (renames_iff h).1 ⟨m, hm, hr'⟩
    have := h.same h1 h2 e
    rw [show sp = sp' from congrArg Prod.snd this]
  · intro p hp
    simp only [file, Env.kindTypes, List.map_map, List.mem_map, Function.comp] at hp
    obtain ⟨q, hq, rfl⟩ := hp
    refine ⟨q.1, rfl, ?_⟩
    obtain ⟨l, hl, hr⟩ := (renames_iff h (k := q.1) (sp := q.2)).2 hq
    exact ⟨l, hl, q.1, q.2, hr, rfl⟩

/-- The entity that a kind is taken to be: its specification, or else itself. -/
theorem conversion_none {d : List (Str × Str)} {k1 k2 : Str} :
    conversion d k1 k2 = none ↔ (Env.kindSpec d k1).getD k1 = (Env.kindSpec d k2).getD k2 := by
  unfold conversion VC.kindConv
  cases h1 : Env.kindSpec d k1 <;> cases h2 : Env.kindSpec d k2 <;> simp [h1, h2]

theorem value_of {iso : Str → Option Int} {d : List (Str × Str)} (h : Fine d) {k : Str} (hi : ∀ p ∈ d, (iso (lower p.2)).isSome = true)
    (hk : ∀ p ∈ d, lower p.1 = lower k → p.1 = k) (v : Int) :
    Value iso (file d) k v ↔ iso (lower ((Env.kindSpec d k).getD k)) = some v := by
  unfold Value
  cases hs : Env.kindSpec d k with
  | some sp =>
    have hm := (spec_mem h.nodup).1 hs
    simp only [Option.getD_some]
    have hex : ∀ w, Exports iso (file d) (lower k) w ↔ iso (lower sp) = some w := by
      intro w
      rw [exports_iff h]
      constructor
      · rintro ⟨k', sp', hp, e, hw⟩
        have := h.same hp hm e
        rw [← show sp' = sp from congrArg Prod.snd this]
        exact hw
      · intro hw; exact ⟨k, sp, hm, rfl, hw⟩
    constructor
    · rintro (hv | ⟨hn, _⟩)
      · exact (hex v).1 hv
      · obtain ⟨w, hw⟩ := Option.isSome_iff_exists.1 (hi _ hm)
        exact absurd ((hex w).2 hw) (hn w)
    · intro hv; exact .inl ((hex v).2 hv)
  | none =>
    have hno := spec_none.1 hs
    simp only [Option.getD_none]
    have hex : ∀ w, ¬Exports iso (file d) (lower k) w := by
      intro w hw
      obtain ⟨k', sp', hp, e, _⟩ := (exports_iff h _ _).1 hw
      exact hno _ hp (hk _ hp e)
    constructor
    · rintro (hv | ⟨_, hv⟩)
      · exact absurd hv (hex v)
      · exact hv
    · intro hv; exact .inr ⟨hex, hv⟩

/-- Two kinds that need no conversion have the same value, if they are spelled like the kinds of the module (missing:
`C108_spelling_violated`). -/
theorem C108_conversion_partial {iso : Str → Option Int} {d : List (Str × Str)} {k1 k2 : Str} (h : Fine d)
    (hi : ∀ p ∈ d, (iso (lower p.2)).isSome = true) (hk : ∀ p ∈ d, (lower p.1 = lower k1 → p.1 = k1) ∧ (lower p.1 = lower k2 → p.1 = k2))
    (hc : conversion d k1 k2 = none) (v : Int) : Value iso (file d) k1 v ↔ Value iso (file d) k2 v := by
  rw [value_of h hi (fun p hp => (hk p hp).1), value_of h hi (fun p hp => (hk p hp).2), conversion_none.1 hc]

/-- A conversion is requested, from the one to the other, if the values are different. -/
theorem C108_needed_partial {iso : Str → Option Int} {d : List (Str × Str)} {k1 k2 : Str} (h : Fine d)
    (hi : ∀ p ∈ d, (iso (lower p.2)).isSome = true) (hk : ∀ p ∈ d, (lower p.1 = lower k1 → p.1 = k1) ∧ (lower p.1 = lower k2 → p.1 = k2))
    {v w : Int} (h1 : Value iso (file d) k1 v) (h2 : Value iso (file d) k2 w) (hne : v ≠ w) : conversion d k1 k2 = some (some k1, some k2) := by
  cases hc : conversion d k1 k2 with
  | none =>
    have h1 := (C108_conversion_partial h hi hk hc v).1 h1
    have e1 := (value_of h hi (fun p hp => (hk p hp).2) v).1 h1
    have e2 := (value_of h hi (fun p hp => (hk p hp).2) w).1 h2
    rw [e1] at e2
    exact absurd (by simpa using e2) hne
  | some c =>
    have : c = (some k1, some k2) := by
      unfold conversion VC.kindConv at hc
      obtain ⟨_, e⟩ := Option.ite_none_right_eq_some.1 hc
      exact (Option.some.inj e).symm
    rw [this]

/-! ### Concrete cases -/

/-- Two kinds of ISO_FORTRAN_ENV. -/
def exIso : Str → Option Int := fun n => if n = "real64".toList then some 8 else if n = "real32".toList then some 4 else none
/-- Kinds of a host. -/
def exKinds : List (Str × Str) := [("kind_phys".toList, "REAL64".toList), ("kind_dyn".toList, "REAL32".toList), ("kind_host".toList, "REAL64".toList)]

/-- A word of letters, digits and underscores. -/
theorem name_of {s : Str} (h : (match s with | [] => false | c :: cs => c.isAlpha && cs.all fun x => x.isAlphanum || x == '_') = true) : Chk.IsName s := by
  cases s with
  | nil => cases h
  | cons c cs =>
    simp only [Bool.and_eq_true, List.all_eq_true, Bool.or_eq_true, beq_iff_eq] at h
    exact ⟨c, cs, rfl, h.1, h.2⟩

/-- The hypotheses of the theorems are met; kinds of the same entity need no conversion, the others do. -/
example : Fine exKinds ∧ (∀ p ∈ exKinds, (exIso (lower p.2)).isSome = true) ∧ conversion exKinds "kind_phys".toList "kind_host".toList = none ∧
    conversion exKinds "kind_phys".toList "kind_dyn".toList ≠ none := by
  refine ⟨⟨by decide +kernel, ?_⟩, by decide +kernel, by decide +kernel, by decide +kernel⟩
  intro p hp
  have : ∀ p ∈ exKinds, (match p.1 with | [] => false | c :: cs => c.isAlpha && cs.all fun x => x.isAlphanum || x == '_') = true ∧
      (match p.2 with | [] => false | c :: cs => c.isAlpha && cs.all fun x => x.isAlphanum || x == '_') = true := by decide +kernel
  exact ⟨name_of (this p hp).1, name_of (this p hp).2⟩

/-- An expression is accepted as the specification of a kind, but the module is not legal. -/
theorem C108_spec_violated :
    Env.kindDict ["kind_phys=selected_real_kind(12)".toList] = some [("kind_phys".toList, "selected_real_kind(12)".toList)] ∧
    ∀ iso, ¬Legal iso (file [("kind_phys".toList, "selected_real_kind(12)".toList)]) := by
  refine ⟨by decide +kernel, fun iso h => ?_⟩
  obtain ⟨k, sp, ⟨h1, h2, e⟩, _⟩ := h.1 _ (.head _)
  have hl : ("use ISO_FORTRAN_ENV, only: ".toList ++ "kind_phys".toList ++ " => ".toList ++ "selected_real_kind(12)".toList) =
      "use ISO_FORTRAN_ENV, only: ".toList ++ k ++ " => ".toList ++ sp := e
  simp only [List.append_assoc, List.append_cancel_left_eq] at hl
  obtain ⟨_, g⟩ := cut (c := ' ') (x := "=> ".toList ++ "selected_real_kind(12)".toList) (y := "=> ".toList ++ sp)
    (by decide +kernel) (name_noBlank h1) hl
  have g := List.append_cancel_left g
  obtain ⟨c, cs, rfl, _, hs⟩ := h2
  have hm : '(' ∈ cs := by
    have : '(' ∈ c :: cs := by rw [← g]; decide +kernel
    rcases List.mem_cons.1 this with e | h
    · have g2 : "selected_real_kind(12)".toList.head? = some '(' := by rw [g, e]; rfl
      exact absurd g2 (by decide +kernel)
    · exact h
  rcases hs _ hm with h | h
  · exact absurd h (by decide)
  · exact absurd h (by decide)

/-- Two kinds whose names differ only in case are accepted, but the module is not legal if they stand for different entities. -/
theorem C108_case_violated : Env.kindDict ["kind_phys=REAL64".toList, "KIND_PHYS=REAL32".toList] =
      some [("kind_phys".toList, "REAL64".toList), ("KIND_PHYS".toList, "REAL32".toList)] ∧
    ∀ iso, ¬Legal iso (file [("kind_phys".toList, "REAL64".toList), ("KIND_PHYS".toList, "REAL32".toList)]) := by
  refine ⟨by decide +kernel, fun iso h => ?_⟩
  have := h.2.1 _ (.head _) _ (.tail _ (.head _)) "kind_phys".toList "REAL64".toList "KIND_PHYS".toList "REAL32".toList
    ⟨name_of (by decide +kernel), name_of (by decide +kernel), rfl⟩ ⟨name_of (by decide +kernel), name_of (by decide +kernel), rfl⟩ (by decide +kernel)
  exact absurd this (by decide +kernel)

/-- A kind that is spelled in another case: no conversion is made, although the values are different. -/
theorem C108_spelling_violated :
    conversion [("real64".toList, "REAL32".toList), ("kind_phys".toList, "REAL64".toList)] "REAL64".toList "kind_phys".toList = none ∧
    Value exIso (file [("real64".toList, "REAL32".toList), ("kind_phys".toList, "REAL64".toList)]) "REAL64".toList 4 ∧
    Value exIso (file [("real64".toList, "REAL32".toList), ("kind_phys".toList, "REAL64".toList)]) "kind_phys".toList 8 := by
  have hf : Fine [("real64".toList, "REAL32".toList), ("kind_phys".toList, "REAL64".toList)] := by
    refine ⟨by decide +kernel, ?_⟩
    intro p hp
    simp only [List.mem_cons, List.not_mem_nil, or_false] at hp
    rcases hp with rfl | rfl <;> exact ⟨name_of (by decide +kernel), name_of (by decide +kernel)⟩
  refine ⟨by decide +kernel, .inl ((exports_iff hf _ _).2 ⟨_, _, .head _, by decide +kernel, by decide +kernel⟩),
    .inl ((exports_iff hf _ _).2 ⟨_, _, .tail _ (.head _), rfl, by decide +kernel⟩)⟩

end Ccpp.KF
