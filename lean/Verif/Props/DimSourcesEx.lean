import Verif.Props.DimSources
/-!
# C92: an example, and what the code does not do
-/
namespace Ccpp.DimS

open VD (Str Dict DVar Stores Lacks OnePerName Innermost Intent constName)

/-- A variable of the host. -/
def hostVar (std lname : String) (tag : Nat) : DVar := ⟨std.toList, lname.toList, none, false, tag⟩

def dictOf (vs : List DVar) : Dict := ⟨vs.map fun v => (v.std, v), vs.map fun v => (v.lname, v.std)⟩

def exHost : Dict := dictOf [hostVar "horizontal_dimension" "ncols" 1, hostVar "vertical_layer_dimension" "pver" 1,
  hostVar "number_of_tracers" "nt" 2]

def exCall : Dict := dictOf [hostVar "air_temperature" "t" 1]

/-- Variables with tag 2 are local variables of a suite, the others come from the host. -/
def exArgs : Args where
  cmp := fun _ _ => .ok true
  src := fun v => if v.tag = 2 then "local".toList else "host".toList
  ctx := fun _ => []
  parents := [exHost]
  name := "physics".toList
  ignore := ["local".toList]
  adjust := true
  isCall := true

def exVar : DVar := hostVar "water_vapor" "q" 1

def exDims : List Str := ["ccpp_constant_one:horizontal_dimension".toList, "1:vertical_layer_dimension".toList]

def exOrder : List Str := ["vertical_layer_dimension".toList, "horizontal_dimension".toList]

theorem mem_of_nodup {dims order : List Str} (h1 : order.Nodup)
    (h2 : ∀ n ∈ dimStdnames false dims, n ∈ order) (h3 : ∀ n ∈ order, n ∈ dimStdnames false dims) :
    Enumerates dims order :=
  ⟨h1, fun n => ⟨fun h => (mem_dimStdnames dims n).1 (h3 n h), fun h => h2 n ((mem_dimStdnames dims n).2 h)⟩⟩

theorem exEnumerates : Enumerates exDims exOrder ∧ Enumerates exDims exOrder.reverse :=
  ⟨mem_of_nodup (by decide +kernel) (by decide +kernel) (by decide +kernel),
   mem_of_nodup (by decide +kernel) (by decide +kernel) (by decide +kernel)⟩

theorem one_dec {d : Dict} (h : (d.entries.map (·.1)).Nodup ∧ d.entries.all (fun p => p.2.std == p.1) = true) :
    OnePerName d := ⟨h.1, fun p hp => by simpa using List.all_eq_true.1 h.2 p hp⟩

theorem exHost_one : OnePerName exHost := one_dec (by decide +kernel)
theorem exCall_one : OnePerName exCall := one_dec (by decide +kernel)

theorem registered_of {vs : List DVar} : Registered (dictOf vs) := by
  intro p hp
  obtain ⟨v, hv, rfl⟩ := List.mem_map.1 hp
  exact .inr ⟨v, List.mem_map.2 ⟨v, hv, rfl⟩⟩

/-- The hypotheses of the theorems are met by a group with a call list in a host, for both orders. -/
theorem C92_example :
    Enumerates exDims exOrder ∧ OnePerName Dict.empty ∧ (∀ e ∈ exArgs.parents, OnePerName e) ∧
    (∀ t, some exCall = some t → OnePerName t ∧ Registered t ∧ t.entries ≠ []) ∧
    (∃ st t, addDims exArgs exVar Dict.empty (some exCall) exOrder = (st, none) ∧ st.tgt = some t ∧ st.err = [] ∧
      t.entries.map (·.1) = ["air_temperature".toList, "vertical_layer_dimension".toList,
        "horizontal_dimension".toList] ∧
      (t.entries.map fun p => p.2.intent) = [none, some .in, some .in]) := by
  refine ⟨exEnumerates.1, ⟨by decide, by decide⟩, ?_, ?_, ?_⟩
  · intro e he
    rcases List.mem_singleton.1 he with rfl
    exact exHost_one
  · rintro t e
    injection e with e; subst e
    exact ⟨exCall_one, registered_of, by decide⟩
  · refine ⟨(addDims exArgs exVar Dict.empty (some exCall) exOrder).1,
      ((addDims exArgs exVar Dict.empty (some exCall) exOrder).1.tgt).getD Dict.empty, ?_, ?_, ?_, ?_, ?_⟩
    · have : (addDims exArgs exVar Dict.empty (some exCall) exOrder).2 = none := by decide +kernel
      rw [← this]
    · have : (addDims exArgs exVar Dict.empty (some exCall) exOrder).1.tgt.isSome = true := by decide +kernel
      obtain ⟨t, ht⟩ := Option.isSome_iff_exists.1 this
      rw [ht]; rfl
    · decide +kernel
    · decide +kernel
    · decide +kernel

/-- An excluded source gives a message with two lines, and nothing is added for it. -/
theorem C92_example_excluded :
    String.ofList (addDims exArgs exVar Dict.empty (some exCall) ["number_of_tracers".toList]).1.err =
      "physics: Cannot find variable for dimension, number_of_tracers, of water_vapor\nFound nt from excluded source, 'local'" ∧
    ((addDims exArgs exVar Dict.empty (some exCall) ["number_of_tracers".toList]).1.tgt.map
      fun t => t.entries.map (·.1)) = some ["air_temperature".toList] := by
  constructor <;> decide +kernel

/-- Violated: if the requested dictionary is empty, the dimensions do not go there but into the dictionary itself. -/
theorem C92_empty_target_violated :
    ∃ (a : Args) (var : DVar) (dims order : List Str) (self : Dict),
      Enumerates dims order ∧ OnePerName self ∧ (∀ e ∈ a.parents, OnePerName e) ∧ Registered self ∧
      (addDims a var self (some Dict.empty) order).2 = none ∧ (addDims a var self (some Dict.empty) order).1.err = [] ∧
      ((addDims a var self (some Dict.empty) order).1.tgt.map fun t => t.entries.map (·.1)) = some [] ∧
      (addDims a var self (some Dict.empty) order).1.self.entries.map (·.1) = order := by
  refine ⟨exArgs, exVar, exDims, exOrder, Dict.empty, exEnumerates.1, ⟨by decide, by decide⟩, ?_, registered_of (vs := []),
    by decide +kernel, by decide +kernel, by decide +kernel, by decide +kernel⟩
  intro e he
  rcases List.mem_singleton.1 he with rfl
  exact exHost_one

/-- Violated: the order of the arguments of the group depends on the order in which Python iterates a set of
strings, which differs from one run of capgen to the next. -/
theorem C92_reproducible_violated :
    ∃ (a : Args) (var : DVar) (dims o1 o2 : List Str) (t : Dict),
      Enumerates dims o1 ∧ Enumerates dims o2 ∧ OnePerName t ∧ Registered t ∧
      ((addDims a var Dict.empty (some t) o1).1.tgt.map fun t => t.entries.map (·.1)) ≠
        ((addDims a var Dict.empty (some t) o2).1.tgt.map fun t => t.entries.map (·.1)) :=
  ⟨exArgs, exVar, exDims, exOrder, exOrder.reverse, exCall, exEnumerates.1, exEnumerates.2, exCall_one, registered_of,
    by decide +kernel⟩

/-- Violated: the added dimension may have the local name of another argument; then the group has two dummy
arguments with the same name. -/
theorem C92_local_name_violated :
    ∃ (a : Args) (var : DVar) (dims order : List Str) (t t' : Dict),
      Enumerates dims order ∧ OnePerName t ∧ Registered t ∧ VD.DistinctLocal t ∧
      (addDims a var Dict.empty (some t) order).2 = none ∧ (addDims a var Dict.empty (some t) order).1.tgt = some t' ∧
      ¬VD.DistinctLocal t' := by
  refine ⟨exArgs, exVar, ["horizontal_dimension".toList], ["horizontal_dimension".toList],
    dictOf [hostVar "number_of_columns" "ncols" 1],
    ((addDims exArgs exVar Dict.empty (some (dictOf [hostVar "number_of_columns" "ncols" 1]))
      ["horizontal_dimension".toList]).1.tgt).getD Dict.empty,
    mem_of_nodup (by decide +kernel) (by decide +kernel) (by decide +kernel), one_dec (by decide +kernel),
    registered_of, ?_, by decide +kernel, ?_, ?_⟩
  · unfold VD.DistinctLocal; decide +kernel
  · have : (addDims exArgs exVar Dict.empty (some (dictOf [hostVar "number_of_columns" "ncols" 1]))
      ["horizontal_dimension".toList]).1.tgt.isSome = true := by decide +kernel
    obtain ⟨t, ht⟩ := Option.isSome_iff_exists.1 this
    rw [ht]; rfl
  · unfold VD.DistinctLocal; decide +kernel

/-- Violated: after the removal of a variable from the call list its local name stays registered, and a dimension
with this local name raises an internal error. -/
theorem C92_removed_violated :
    ∃ (a : Args) (var : DVar) (dims order : List Str) (t : Dict),
      Enumerates dims order ∧ OnePerName (VD.remove t "old_name".toList) ∧ Registered t ∧
      (VD.remove t "old_name".toList).entries ≠ [] ∧
      (addDims a var Dict.empty (some (VD.remove t "old_name".toList)) order).2 ≠ none := by
  refine ⟨exArgs, exVar, ["horizontal_dimension".toList], ["horizontal_dimension".toList],
    dictOf [hostVar "air_temperature" "t" 1, hostVar "old_name" "ncols" 1],
    mem_of_nodup (by decide +kernel) (by decide +kernel) (by decide +kernel), one_dec (by decide +kernel),
    registered_of, by decide +kernel, by decide +kernel⟩

end Ccpp.DimS
