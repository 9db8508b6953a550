import Verif.Props.VarEntryDict
/-!
# Proofs for C86: the constructor of a variable
-/
namespace Ccpp.VE

open MF (Val)

theorem final_get (d : Dict) : (ddtCase d).1.get = Final d.get := by
  funext k
  unfold ddtCase Final
  cases h : d.get "ddt_type".toList with
  | none => rfl
  | some t =>
    simp only
    rw [get_del]
    by_cases h1 : k = "ddt_type".toList
    · rw [if_pos h1, if_pos h1]
    · rw [if_neg h1, if_neg h1, get_set]
      by_cases h2 : k = "kind".toList
      · rw [if_pos h2, if_pos h2]
      · rw [if_neg h2, if_neg h2]
        have key : ∀ d' : Dict, (∀ j, d'.get j = if j = "type".toList then (d.get j).orElse fun _ => some t else d.get j) →
            (if (d'.get "units".toList).isSome then d' else d'.set "units".toList (.text [])).get k =
              if k = "type".toList then (d.get k).orElse fun _ => some t
              else if k = "units".toList then (d.get k).orElse fun _ => some (.text []) else d.get k := by
          intro d' hd'
          have hu : d'.get "units".toList = d.get "units".toList := by rw [hd', if_neg (by decide)]
          rw [hu]
          by_cases h3 : k = "type".toList
          · rw [if_pos h3]
            have h4 : k ≠ "units".toList := by rw [h3]; decide
            split
            · rw [hd', if_pos h3]
            · rw [get_set, if_neg h4, hd', if_pos h3]
          · rw [if_neg h3]
            by_cases h4 : k = "units".toList
            · rw [if_pos h4]
              subst h4
              cases hh : d.get "units".toList with
              | some x => rw [Option.isSome_some, if_pos rfl, hd', if_neg h3, hh]; rfl
              | none => rw [Option.isSome_none, if_neg (by decide), get_set, if_pos rfl]; rfl
            · rw [if_neg h4]
              split
              · rw [hd', if_neg h3]
              · rw [get_set, if_neg h4, hd', if_neg h3]
        apply key
        intro j
        cases hh : d.get "type".toList with
        | some x =>
          rw [Option.isSome_some, if_pos rfl]
          by_cases h5 : j = "type".toList
          · rw [if_pos h5, h5, hh]; rfl
          · rw [if_neg h5]
        | none =>
          rw [Option.isSome_none, if_neg (by decide), get_set]
          by_cases h5 : j = "type".toList
          · rw [if_pos h5, if_pos h5, h5, hh]; rfl
          · rw [if_neg h5, if_neg h5]

theorem unique_final {d : Dict} (h : Unique d) : Unique (ddtCase d).1 := by
  unfold ddtCase
  cases d.get "ddt_type".toList with
  | none => exact h
  | some t =>
    simp only
    apply unique_del
    apply unique_set
    have h1 : Unique (if (d.get "type".toList).isSome then d else d.set "type".toList t) := by
      split
      · exact h
      · exact unique_set h _ _
    generalize (if (d.get "type".toList).isSome then d else d.set "type".toList t) = d' at h1
    cases (d'.get "units".toList).isSome with
    | true => exact h1
    | false => exact unique_set h1 _ _

theorem reject_true : RC.reject true = .error := rfl

theorem ref_ne_none (s : Str) (m : Nat) : RC.fortranRef s true m ≠ .ok none := by
  unfold RC.fortranRef
  split
  · simp
  · split
    · rw [reject_true]; simp
    · split
      · rw [reject_true]; simp
      · simp

theorem ofOut_ne {o : RC.Out} (h : o ≠ .ok none) : ofOut o ≠ .none := by
  unfold ofOut
  split <;> simp_all

theorem runCheck_ne_none (fl : Str → Option Num) (reg : List Str) (c : Check) (v : Val) (d : Option Dict) : runCheck fl reg c v d true ≠ .none := by
  unfold runCheck
  split
  · apply ofOut_ne
    unfold RC.localName
    split
    · split
      · simp
      · exact ref_ne_none _ _
      · simp
      · simp
      · simp
    · exact ref_ne_none _ _
  · next s =>
    unfold Chk.cfStandardName
    split
    · simp_all
    · next h =>
      exfalso
      split at h
      · cases h
      · split at h <;> cases h
    · simp
  · apply ofOut_ne
    unfold RC.units
    split
    · simp
    · rw [reject_true]; simp
  · next l =>
    by_cases h : ∀ d ∈ l, DimOk d
    · rw [(dimOk_iff l).2 h]; simp
    · rw [dim_raise h]; simp
  · apply ofOut_ne
    unfold RC.fortranType
    split
    · simp
    · rw [reject_true]; simp
  · apply ofOut_ne
    unfold RC.diagId
    split
    · rw [reject_true]; simp
    · split
      · simp
      · rw [reject_true]; simp
  · apply ofOut_ne
    unfold RC.diagFixed
    split
    · rw [reject_true]; simp
    · split
      · simp
      · rw [if_pos rfl]; split <;> simp
  · next s =>
    intro h
    have hn : ∀ o, ofLit o = .none → o = .ok none := by
      intro o ho
      unfold ofLit at ho
      split at ho <;> simp_all
    have := hn _ h
    obtain ⟨h1, h2, -⟩ := Lit.C84_default_error s (d.map fun d => ⟨textOf d "type".toList, textOf d "kind".toList, true⟩)
    by_cases hf : Lit.defaultValue s (d.map fun d => ⟨textOf d "type".toList, textOf d "kind".toList, true⟩) false = .ok none
    · rw [h1.1 hf] at this; cases this
    · rw [h2 hf] at this; exact hf this
  · split
    · split <;> simp
    · simp
  · simp

theorem valid_ne_none (fl : Str → Option Num) (reg : List Str) (p : VProp) (v : Val) (d : Option Dict) : validValue fl reg p v d true ≠ .none := by
  unfold validValue
  split
  · simp
  · split
    · exact runCheck_ne_none _ _ _ _ _
    · simp
  · simp

variable {fl : Str → Option Num} {reg : List Str}

/-- The property is accepted by the constructor. -/
def Pass (fl : Str → Option Num) (reg : List Str) (D : Dict) (k : Str) (v : Val) : Prop :=
  ∃ p, getProp k = some p ∧ ∃ w, validValue fl reg p v (some D) true = .val w

theorem validate_iff (D d : Dict) : (validate fl reg D d = .none ↔ ∀ e ∈ d, Pass fl reg D e.1 e.2) ∧
    (validate fl reg D d = .none ∨ validate fl reg D d = .error ∨ ∃ x, validate fl reg D d = .crash x) := by
  induction d with
  | nil => simp [validate]
  | cons e d ih =>
    obtain ⟨k, v⟩ := e
    unfold validate
    simp only [List.mem_cons, forall_eq_or_imp]
    cases hg : getProp k with
    | none =>
      refine ⟨⟨fun h => (by cases h), ?_⟩, .inr (.inr ⟨_, rfl⟩)⟩
      rintro ⟨⟨p, hp, -⟩, -⟩
      rw [hg] at hp; cases hp
    | some p =>
      simp only
      cases hv : validValue fl reg p v (some D) true with
      | val w =>
        refine ⟨?_, ih.2⟩
        rw [ih.1]
        exact ⟨fun h => ⟨⟨p, hg, w, hv⟩, h⟩, And.right⟩
      | none => exact absurd hv (valid_ne_none _ _ _ _ _)
      | error =>
        refine ⟨⟨fun h => (by cases h), ?_⟩, .inr (.inl rfl)⟩
        rintro ⟨⟨q, hq, w, hw⟩, -⟩
        rw [hg] at hq; cases hq
        rw [hv] at hw; cases hw
      | crash x =>
        refine ⟨⟨fun h => (by cases h), ?_⟩, .inr (.inr ⟨_, rfl⟩)⟩
        rintro ⟨⟨q, hq, w, hw⟩, -⟩
        rw [hg] at hq; cases hq
        rw [hv] at hw; cases hw

theorem required_eq (scheme : Bool) (k : Str) : k ∈ required scheme ↔ k ∈ needed scheme := by
  cases scheme
  · have : required false = needed false := by decide
    rw [this]
  · have : required true = needed true := by decide
    rw [this]

theorem newVar_iff {scheme : Bool} {d0 : Dict} (hu : Unique d0) (r : Dict) (i c : Bool) :
    newVar fl scheme reg d0 = .var r i c ↔ (r = (ddtCase d0).1 ∧ i = (ddtCase d0).2 ∧ c = isConstituent fl (ddtCase d0).1 ∧
      (∀ k ∈ needed scheme, (ddtCase d0).1.get k ≠ none) ∧ protectedMismatch fl (ddtCase d0).1 = false ∧
      ∀ k v, (ddtCase d0).1.get k = some v → Pass fl reg (ddtCase d0).1 k v) := by
  have hv : (∀ k v, (ddtCase d0).1.get k = some v → Pass fl reg (ddtCase d0).1 k v) ↔ validate fl reg (ddtCase d0).1 (ddtCase d0).1 = .none := by
    rw [(validate_iff _ _).1]
    constructor
    · rintro h ⟨k, v⟩ he
      exact h k v ((mem_get (unique_final hu) k v).1 he)
    · intro h k v he
      exact h (k, v) ((mem_get (unique_final hu) k v).2 he)
  rw [hv]
  have hr : ((required scheme).any fun k => ((ddtCase d0).1.get k).isNone) = true ↔ ¬ ∀ k ∈ needed scheme, (ddtCase d0).1.get k ≠ none := by
    simp only [List.any_eq_true, required_eq, Option.isNone_iff_eq_none, ne_eq]
    push Not
    rfl
  unfold newVar
  simp only
  by_cases h1 : ((ddtCase d0).1.any fun e => (getProp e.1).isNone) = true
  · rw [if_pos h1]
    refine ⟨fun h => (by cases h), ?_⟩
    rintro ⟨-, -, -, -, -, h⟩
    rw [(validate_iff _ _).1] at h
    rw [List.any_eq_true] at h1
    obtain ⟨e, he, hn⟩ := h1
    obtain ⟨p, hp, -⟩ := h e he
    rw [hp] at hn; cases hn
  · rw [if_neg h1]
    by_cases h2 : ((required scheme).any fun k => ((ddtCase d0).1.get k).isNone) = true
    · rw [if_pos h2]
      exact ⟨fun h => (by cases h), fun h => absurd h.2.2.2.1 (hr.1 h2)⟩
    · rw [if_neg h2]
      have h2' := not_not.1 fun hh => h2 (hr.2 hh)
      by_cases h3 : protectedMismatch fl (ddtCase d0).1 = true
      · rw [if_pos h3]
        refine ⟨fun h => (by cases h), ?_⟩
        rintro ⟨-, -, -, -, h, -⟩
        rw [h3] at h; cases h
      · rw [if_neg h3]
        rw [Bool.not_eq_true] at h3
        rcases (validate_iff (fl := fl) (reg := reg) (ddtCase d0).1 (ddtCase d0).1).2 with h | h | ⟨x, h⟩
        · rw [h]
          simp only [Res.var.injEq]
          constructor
          · rintro ⟨rfl, rfl, rfl⟩; exact ⟨rfl, rfl, rfl, h2', h3, trivial⟩
          · rintro ⟨rfl, rfl, rfl, -⟩; exact ⟨rfl, rfl, rfl⟩
        · rw [h]; exact ⟨fun h => (by cases h), fun h => by cases h.2.2.2.2.2⟩
        · rw [h]; exact ⟨fun h => (by cases h), fun h => by cases h.2.2.2.2.2⟩

end Ccpp.VE
