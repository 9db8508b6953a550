import Verif.Spec.VarEntry
import Verif.Props.RefCheckThm
import Verif.Props.MetadataVarLine
import Verif.Props.LiteralsEx
/-!
# Proofs for C86: texts of single properties
-/
namespace Ccpp.VE

open MF (Val)
open Ccpp.FDecl (commaJoin)

/-! ## References -/

theorem blank_white {b : Str} : FDecl.Blank b ↔ ∀ c ∈ b, RC.White c := by
  unfold FDecl.Blank
  simp only [RC.white_iff]

theorem index_dim (d : Str) : MF.Index d ↔ RC.Dim d := by
  unfold MF.Index RC.Dim
  constructor
  · rintro (h | h | h)
    · exact .inr (.inl h)
    · exact .inl h
    · exact .inr (.inr h)
  · rintro (h | h | h)
    · exact .inr (.inl h)
    · exact .inl h
    · exact .inr (.inr h)

theorem dims_of_indices {raw ds : List Str} (h : MF.Indices raw ds) (hne : ds ≠ []) : RC.Dims ds (commaJoin raw) := by
  induction h with
  | nil => exact absurd rfl hne
  | @cons r d raw ds h1 h2 ih =>
    obtain ⟨hi, p, q, hp, hq, rfl⟩ := h1
    cases h2 with
    | nil => exact .one (blank_white.1 hp) ((index_dim _).1 hi) (blank_white.1 hq)
    | @cons r' d' raw' ds' h3 h4 =>
      exact .more (blank_white.1 hp) ((index_dim _).1 hi) (blank_white.1 hq) (ih (by simp))

theorem indices_of_dims {ds : List Str} {r : Str} (h : RC.Dims ds r) : ∃ raw, MF.Indices raw ds ∧ commaJoin raw = r ∧ raw ≠ [] := by
  induction h with
  | @one a d b ha hd hb =>
    exact ⟨[a ++ d ++ b], .cons ⟨(index_dim _).2 hd, a, b, blank_white.2 ha, blank_white.2 hb, rfl⟩ .nil, rfl, by simp⟩
  | @more a d b ds r ha hd hb _ ih =>
    obtain ⟨raw, h1, h2, h3⟩ := ih
    refine ⟨(a ++ d ++ b) :: raw, .cons ⟨(index_dim _).2 hd, a, b, blank_white.2 ha, blank_white.2 hb, rfl⟩ h1, ?_, by simp⟩
    rw [FDecl.commaJoin_cons h3, h2]

theorem dims_ne {ds : List Str} {r : Str} (h : RC.Dims ds r) : ds ≠ [] := by cases h <;> simp

theorem refGroups_ref {s n g : Str} (h : MF.refGroups s = some (n, g, [])) :
    ∃ ds, RC.Ref n ds s ∧ ds.length ≤ 7 ∧ (Chk.splitOn ',' g).map strip = ds := by
  obtain ⟨b, raw, dims, e, hn, hb, hd, h7, hi, hg⟩ := MF.refGroups_some h
  exact ⟨dims, ⟨hn, b, commaJoin raw, blank_white.1 hb, dims_of_indices hi hd, by rw [e]; simp⟩, h7, hg⟩

theorem refGroups_of_ref {s n : Str} {ds : List Str} (h : RC.Ref n ds s) (h7 : ds.length ≤ 7) :
    ∃ g, MF.refGroups s = some (n, g, []) ∧ (Chk.splitOn ',' g).map strip = ds := by
  obtain ⟨hn, b, r, hb, hr, rfl⟩ := h
  obtain ⟨raw, h1, rfl, -⟩ := indices_of_dims hr
  obtain ⟨e1, e2⟩ := MF.refGroups_of (r := []) hn (blank_white.2 hb) (dims_ne hr) h7 h1
  exact ⟨_, by rw [← e1]; simp, e2⟩

theorem ref_not_name {s n : Str} {ds : List Str} (h : RC.Ref n ds s) : ¬ Chk.IsName s := by
  obtain ⟨-, b, r, -, -, rfl⟩ := h
  intro hn
  have := (RC.wordC_not (RC.name_chars hn '(' (by simp))).2.1
  exact this rfl

theorem ref_clean {s n : Str} {ds : List Str} (h : RC.Ref n ds s) : s.getLast? ≠ some '\n' := by
  obtain ⟨-, b, r, -, -, rfl⟩ := h
  rw [List.getLast?_append]
  show some ')' ≠ some '\n'
  decide

theorem fid_clean {s : Str} (h : s.getLast? ≠ some '\n') : Chk.fidMatch s = true ↔ Chk.IsName s := by
  rw [Chk.fidMatch_iff]
  constructor
  · rintro (h' | ⟨t, -, rfl⟩)
    · exact h'
    · simp at h
  · exact .inl

theorem upTo_clean {P : Str → Prop} {s : Str} (h : s.getLast? ≠ some '\n') : RC.UpToNewline P s ↔ P s := by
  unfold RC.UpToNewline
  constructor
  · rintro (h' | ⟨t, rfl, -⟩)
    · exact h'
    · simp at h
  · exact .inl

theorem ref_iff {v w : Str} (h : v.getLast? ≠ some '\n') (e : Bool) : RC.fortranRef v e 0 = .ok (some w) ↔ w = v ∧ RefOk v := by
  rw [RC.C85_ref, upTo_clean h, upTo_clean h]
  simp [RefOk]

/-- A dimension of colons is counted alike. -/
theorem count_colon (ds : List Str) : (ds.filter (· == [':'])).length = ds.count ":".toList := by
  rw [List.count_eq_countP, List.countP_eq_length_filter]; rfl

/-- check_array_reference. -/
theorem arrayReference_iff {name : Str} (hc : name.getLast? ≠ some '\n') (g : Str → Option Val) (r : Option Str) :
    MF.arrayReference name g = some r ↔ NameFits (g "dimensions".toList) name r := by
  unfold MF.arrayReference
  by_cases hn : Chk.IsName name
  · rw [if_pos ((fid_clean hc).2 hn)]
    constructor
    · intro h; cases h; exact .name hn
    · intro h
      cases h with
      | name => rfl
      | ref h => exact absurd hn (ref_not_name h)
  · rw [if_neg (fun h => hn ((fid_clean hc).1 h))]
    constructor
    · intro h
      split at h
      · next g1 g2 hg =>
        obtain ⟨ds, h1, h7, e⟩ := refGroups_ref hg
        simp only [e] at h
        split at h
        · next vdims hv =>
          split at h
          · next hl =>
            rw [count_colon] at hl
            have := Option.some.inj h
            rw [← this]
            exact .ref h1 h7 hv hl
          · cases h
        · cases h
      · cases h
    · intro h
      cases h with
      | name h => exact absurd h hn
      | @ref n ds l h h7 hd hl =>
        obtain ⟨g2, hg, e⟩ := refGroups_of_ref h h7
        rw [hg]
        simp only [e, hd]
        rw [if_pos (by rw [count_colon]; exact hl)]
        rfl

theorem commaSep_dims {ds : List Str} (hne : ds ≠ []) (h : ∀ d ∈ ds, RC.Dim d) : ∀ a, (∀ c ∈ a, RC.White c) → RC.Dims ds (a ++ MF.commaSep ds) := by
  induction ds with
  | nil => exact absurd rfl hne
  | cons d ds ih =>
    intro a ha
    cases ds with
    | nil =>
      have := RC.Dims.one (b := []) ha (h d (by simp)) (by simp)
      simpa [MF.commaSep] using this
    | cons d' ds =>
      have h2 := ih (by simp) (fun x hx => h x (List.mem_cons_of_mem _ hx)) [' '] (by simp [RC.White])
      have := RC.Dims.more (b := []) ha (h d (by simp)) (by simp) h2
      simpa [MF.commaSep] using this

theorem dims_all {ds : List Str} {r : Str} (h : RC.Dims ds r) : ∀ d ∈ ds, RC.Dim d := by
  induction h with
  | one _ h _ => simpa using h
  | more _ h _ _ ih =>
    intro x hx
    rcases List.mem_cons.1 hx with rfl | hx
    · exact h
    · exact ih x hx

theorem pretty_ref {n s : Str} {ds : List Str} (h : RC.Ref n ds s) : RC.Ref n ds (pretty n ds) := by
  obtain ⟨hn, b, r, -, hr, -⟩ := h
  refine ⟨hn, [], MF.commaSep ds, by simp, ?_, by simp [pretty]⟩
  simpa using commaSep_dims (dims_ne hr) (dims_all hr) [] (by simp)

/-! ## Dimensions -/

theorem dimOk_iff (l : List Str) : Chk.dimensions l true 0 = .val l ↔ ∀ d ∈ l, DimOk d := (Chk.C50_dimensions l 0).1

theorem dim_raise {l : List Str} (h : ¬ ∀ d ∈ l, DimOk d) : Chk.dimensions l true 0 = .raise :=
  (Chk.C50_dimensions l 0).2 (fun hh => h ((dimOk_iff l).1 hh))

/-- A component that is accepted while the table is read. -/
def WeakPart (t : Str) : Prop :=
  Chk.DimPart 0 t ∨ ((lower t).take 4 = "size".toList ∧ ∃ i j, Chk.balancedParen (t.drop 4) 0 = (some i, some j))

theorem component_weak {t : Str} (hs : strip t = t) :
    Chk.dimComponent t false 0 = .val true ↔ WeakPart t := by
  have hk := Chk.componentOk_iff 0 t
  rw [hs] at hk
  unfold WeakPart
  rw [← hk]
  unfold Chk.dimComponent Chk.ComponentOk Chk.fortranId
  cases h1 : Chk.isPyInt t with
  | true => simp
  | false =>
    cases h2 : Chk.fidMatch t with
    | true => simp
    | false =>
      simp only [Bool.false_eq_true, if_false, if_true, false_and, or_self, false_or]
      rw [hs]
      by_cases h3 : (lower t).take 4 = "size".toList
      · rw [if_pos h3]
        simp only [h3, true_and]
        cases hb : Chk.balancedParen (t.drop 4) 0 with
        | mk a b => cases a <;> cases b <;> simp
      · rw [if_neg h3]
        constructor
        · intro h; cases h
        · intro h; exact absurd h.1 h3

theorem components_weak (ts : List Str) (hs : ∀ t ∈ ts, strip t = t) :
    Chk.dimComponents false 0 ts = .val true ↔ ∀ t ∈ ts, WeakPart t := by
  induction ts with
  | nil => simp [Chk.dimComponents]
  | cons t ts ih =>
    have h1 := component_weak (hs t (by simp))
    have h2 := ih fun x hx => hs x (List.mem_cons_of_mem _ hx)
    rw [Chk.dimComponents]
    cases h : Chk.dimComponent t false 0 with
    | raise => simp only [List.mem_cons, forall_eq_or_imp, ← h1, h]; simp
    | none => simp only [List.mem_cons, forall_eq_or_imp, ← h1, h]; simp
    | val b =>
      cases b with
      | true => simp only [List.mem_cons, forall_eq_or_imp, ← h1, h, true_and]; exact h2
      | false => simp only [List.mem_cons, forall_eq_or_imp, ← h1, h]; simp

theorem items_false (l : List Str) : Chk.dimItems false 0 false l ≠ .val true := by
  induction l with
  | nil => simp [Chk.dimItems]
  | cons d l ih =>
    rw [Chk.dimItems]
    split
    · simp
    · split
      · simp
      · simp
      · exact ih
      · exact ih

theorem weak_iff (l : List Str) : Chk.dimensions l false 0 = .val l ↔ ∀ d ∈ l, WeakDim d := by
  have hi : ∀ l, Chk.dimItems false 0 true l = .val true ↔ ∀ d ∈ l, WeakDim d := by
    intro l
    induction l with
    | nil => simp [Chk.dimItems]
    | cons d l ih =>
      have hc := components_weak (((Chk.splitOn ':' d).filter (!·.isEmpty)).map strip)
        (by intro t ht; obtain ⟨u, -, rfl⟩ := List.mem_map.1 ht; exact Env.strip_strip u)
      have c3 : (∀ t ∈ ((Chk.splitOn ':' d).filter (!·.isEmpty)).map strip, WeakPart t) ↔
          ∀ t ∈ Chk.splitOn ':' d, t ≠ [] → WeakPart (strip t) := by
        simp only [List.mem_map, List.mem_filter, Bool.not_eq_true', List.isEmpty_eq_false_iff, forall_exists_index, and_imp]
        constructor
        · intro h t ht hne; exact h _ t ht hne rfl
        · rintro h _ t ht hne rfl; exact h t ht hne
      rw [c3] at hc
      have hw : WeakDim d ↔ (Chk.splitOn ':' d).length ≤ 3 ∧ ∀ t ∈ Chk.splitOn ':' d, t ≠ [] → WeakPart (strip t) := Iff.rfl
      rw [Chk.dimItems, List.forall_mem_cons, hw, ← hc, ← ih]
      by_cases hl : (Chk.splitOn ':' d).length > 3
      · simp only [hl, if_true]
        simp; omega
      · simp only [hl, if_false]
        have : (Chk.splitOn ':' d).length ≤ 3 := by omega
        cases h : Chk.dimComponents false 0 (((Chk.splitOn ':' d).filter (!·.isEmpty)).map strip) with
        | raise => simp
        | none => simp
        | val b =>
          cases b with
          | true => simp [this]
          | false => simp [items_false]
  unfold Chk.dimensions
  rw [← hi]
  split
  · next h => simp [h]
  · next h => simp [h]
  · next h => simp [h]
  · next h => simp [h]

theorem fromOne_ok (d : Str) : DimOk (fromOne d) ↔ DimOk d := by
  unfold fromOne
  split
  · exact Iff.rfl
  · next h =>
    have e : Chk.splitOn ':' ("ccpp_constant_one:".toList ++ d) = ["ccpp_constant_one".toList, d] := by
      have e0 : "ccpp_constant_one:".toList ++ d = "ccpp_constant_one".toList ++ ':' :: d := by
        rw [show "ccpp_constant_one:".toList = "ccpp_constant_one".toList ++ [':'] from rfl, List.append_assoc]; rfl
      rw [e0, Chk.splitOn_append _ _ _ (by decide), Chk.splitOn_item _ _ h]
    unfold DimOk
    rw [e, Chk.splitOn_item _ _ h]
    have h1 : Chk.DimPart 0 (strip "ccpp_constant_one".toList) :=
      .inr ⟨⟨'c', "cpp_constant_one".toList, by decide, by decide, by decide⟩, .inl rfl⟩
    simp only [List.length_cons, List.length_nil, List.mem_cons, List.not_mem_nil, or_false]
    constructor
    · rintro ⟨-, h2⟩
      exact ⟨by omega, fun t ht hne => by subst ht; exact h2 t (.inr rfl) hne⟩
    · rintro ⟨-, h2⟩
      refine ⟨by omega, fun t ht hne => ?_⟩
      rcases ht with rfl | rfl
      · exact h1
      · exact h2 t rfl hne

end Ccpp.VE
