import Verif.Props.HostModelUse
/-!
# C67, C68: violations and examples
-/
namespace Ccpp.HM

/-- Violation: two components with the same local name (in different types) are refused. -/
theorem C67_same_component_violated {lib : Lib} {headers : List Header} {const : Option (Str × V)} {ps : List (List V)}
    (hp : Paths lib (variablesOf headers const) ps) {p q : List V} (hpm : p ∈ ps) (hqm : q ∈ ps) (hne : p ≠ q)
    (h2 : 2 ≤ p.length) (h2' : 2 ≤ q.length) (he : lower (last p).loc = lower (last q).loc) (fuel : Nat) :
    build fuel lib headers const = none := by
  cases hb : build fuel lib headers const with
  | none => rfl
  | some H =>
    exfalso
    obtain ⟨ps', ha⟩ := (C67_accepted_iff lib headers const).1 ⟨fuel, H, hb⟩
    have := paths_unique ha.titles hp ha.paths
    subst this
    exact hne (nodup_map_eq ha.components (List.mem_filter.2 ⟨hpm, by simp [h2]⟩) (List.mem_filter.2 ⟨hqm, by simp [h2']⟩) he)

/-! ## A host -/

def exLib : Lib :=
  [("state_t".toList, [⟨"temp".toList, "t".toList, "real".toList, false, [['n']]⟩, ⟨"hum".toList, "q(:, ix_w)".toList, "real".toList, false, [['n']]⟩])]

def exState : V := ⟨"state".toList, "st".toList, "state_t".toList, true, []⟩
def exTemp : V := ⟨"temp".toList, "t".toList, "real".toList, false, [['n']]⟩
def exHum : V := ⟨"hum".toList, "q(:, ix_w)".toList, "real".toList, false, [['n']]⟩
def exIx : V := ⟨"ix_w".toList, "iw".toList, "integer".toList, false, []⟩
def exN : V := ⟨"horizontal_loop_extent".toList, "ncol".toList, "integer".toList, false, []⟩
def exOther : V := ⟨"other".toList, "oth".toList, "real".toList, false, []⟩

def exHeaders : List Header :=
  [⟨.module_ "state_mod".toList, [exState, exOther]⟩, ⟨.module_ "ix_mod".toList, [exIx]⟩, ⟨.host, [exN]⟩]

def exPs : List (List V) := [[exState, exTemp], [exState, exHum], [exState], [exOther], [exIx], [exN]]

theorem ex_paths : Paths exLib (variablesOf exHeaders none) exPs :=
  .node (fields := [exTemp, exHum]) (qs := [[exTemp], [exHum]]) rfl (List.mem_cons_self ..)
    (.leaf (Or.inl rfl) (.leaf (Or.inl rfl) .nil)) (.leaf (Or.inl rfl) (.leaf (Or.inl rfl) (.leaf (Or.inl rfl) .nil)))

/-- The host meets the conditions of C67_accepted_iff. -/
theorem ex_built : ∃ H, build 5 exLib exHeaders none = some H := by
  have h : (build 5 exLib exHeaders none).isSome = true := by decide +kernel
  exact Option.isSome_iff_exists.1 h

theorem ex_shallow : Shallow exPs := by
  unfold Shallow
  decide

/-- C67_reference_partial for the component `hum`: `st%q(:, iw)`. -/
theorem ex_ref : PathRef exPs [exState, exHum] "st%q(:, iw)".toList := by
  have := PathRef.array (ps := exPs) (p := [exState, exHum]) (name := "q".toList) (raws := [":".toList, " ix_w".toList])
    (dims := [[([], []), ([], [])], [("ix_w".toList, "iw".toList)]]) (q := fun _ => [exIx])
    (by decide) (by decide) (by decide) (by decide) (by decide) (by decide) (by decide) (by decide) (by decide)
    (by
      intro d hd x hx hn
      simp only [List.mem_cons, List.not_mem_nil, or_false] at hd
      rcases hd with rfl | rfl
      · simp only [List.mem_cons, List.not_mem_nil, or_false, or_self] at hx
        subst hx
        exact Or.inl ⟨rfl, rfl⟩
      · rw [List.mem_singleton] at hx
        subst hx
        exact absurd ⟨by decide, [exIx], by decide, rfl⟩ hn)
    (by
      intro d hd x hx hn
      simp only [List.mem_cons, List.not_mem_nil, or_false] at hd
      rcases hd with rfl | rfl
      · simp only [List.mem_cons, List.not_mem_nil, or_false, or_self] at hx
        subst hx
        exact absurd rfl hn.1
      · rw [List.mem_singleton] at hx
        subst hx
        exact ⟨by decide, rfl⟩)
    (by
      intro d hd x hx hn
      simp only [List.mem_cons, List.not_mem_nil, or_false] at hd
      rcases hd with rfl | rfl
      · simp only [List.mem_cons, List.not_mem_nil, or_false, or_self] at hx
        subst hx
        exact absurd rfl hn.1
      · rw [List.mem_singleton] at hx
        subst hx
        exact PathRef.plain (p := [exIx]) (by decide) (by decide))
  exact this

/-- C68: the component `hum` is requested; `st` and its index are imported, the other variable is not. -/
theorem ex_imports : ∃ H u, build 5 exLib exHeaders none = some H ∧ H.requests 5 ⟨[], []⟩ ["hum".toList] = some u ∧
    H.locations "cap".toList u = [("state_mod".toList, "st".toList), ("ix_mod".toList, "iw".toList)] := by
  have h : ((build 5 exLib exHeaders none).bind fun H => (H.requests 5 ⟨[], []⟩ ["hum".toList]).map fun u =>
      H.locations "cap".toList u) = some [("state_mod".toList, "st".toList), ("ix_mod".toList, "iw".toList)] := by decide +kernel
  rw [Option.bind_eq_some_iff] at h
  obtain ⟨H, h1, h2⟩ := h
  rw [Option.map_eq_some_iff] at h2
  obtain ⟨u, h2, h3⟩ := h2
  exact ⟨H, u, h1, h2, h3⟩

/-! ## Violations -/

/-- Violation: a type that contains itself (as a pointer or allocatable component) leads to an endless recursion. -/
theorem C67_self_violated (fuel : Nat) :
    build fuel [("t".toList, [⟨"next_node".toList, "next".toList, "t".toList, true, []⟩])]
      [⟨.module_ "m".toList, [⟨"list_head".toList, "head".toList, "t".toList, true, []⟩]⟩] none = none := by
  have hp : ∀ n, pathsN [("t".toList, [⟨"next_node".toList, "next".toList, "t".toList, true, []⟩])] n
      [⟨"next_node".toList, "next".toList, "t".toList, true, []⟩] = none := by
    intro n
    induction n with
    | zero => rfl
    | succ n ih =>
      show pathsLoop _ _ _ = none
      rw [pathsLoop]
      show Option.bind (pathsN _ n _) _ = none
      rw [ih]
      rfl
  have hr : refsAll [("t".toList, [⟨"next_node".toList, "next".toList, "t".toList, true, []⟩])] fuel
      [⟨"list_head".toList, "head".toList, "t".toList, true, []⟩] = none := by
    rw [refsAll]
    show Option.bind (Option.map _ (pathsN _ fuel _)) _ = none
    rw [hp]
    rfl
  cases hb : build fuel [("t".toList, [⟨"next_node".toList, "next".toList, "t".toList, true, []⟩])]
      [⟨.module_ "m".toList, [⟨"list_head".toList, "head".toList, "t".toList, true, []⟩]⟩] none with
  | none => rfl
  | some H =>
    obtain ⟨rs, h1, _⟩ := build_core hb
    have h1 : refsAll _ fuel [⟨"list_head".toList, "head".toList, "t".toList, true, []⟩] = some rs := h1
    rw [hr] at h1
    cases h1

/-- Violation: the index in the name of a variable with components stays a standard name: `st(ix)%t` instead of `st(i)%t`
(ddt_library.py:102-111). -/
theorem C67_root_index_violated : ((build 5 [("t".toList, [exTemp])]
    [⟨.module_ "m".toList, [⟨"state".toList, "st(ix)".toList, "t".toList, true, []⟩, ⟨"ix".toList, "i".toList, "integer".toList, false, []⟩]⟩]
    none).bind fun H => (H.find "temp".toList).bind fun r => callString H.find 9 r) = some "st(ix)%t".toList := by
  decide +kernel

/-- Violation: the loop variables of the first host table are forgotten if a second one has loop variables. -/
theorem C67_loops_violated : (build 5 [] [⟨.host, [⟨"horizontal_loop_begin".toList, "ib".toList, "integer".toList, false, []⟩]⟩,
    ⟨.host, [⟨"horizontal_loop_end".toList, "ie".toList, "integer".toList, false, []⟩]⟩] none).map
      (fun H => H.loops.map fun d => d.entries.map fun r => r.leaf.std) = some (some ["horizontal_loop_end".toList]) := by
  decide +kernel

/-- The case of C67_nested_violated: `st%t` is written for `st%sub%t`. -/
theorem ex_nested : ((build 5 [("sub_t".toList, [exTemp]), ("t".toList, [⟨"sub".toList, "sub".toList, "sub_t".toList, true, []⟩])]
    [⟨.module_ "m".toList, [⟨"state".toList, "st".toList, "t".toList, true, []⟩]⟩]
    none).bind fun H => (H.find "temp".toList).bind fun r => callString H.find 9 r) = some "st%t".toList := by
  decide +kernel

/-- The case of C67_same_component_violated. -/
theorem ex_same (fuel : Nat) : build fuel [("a_t".toList, [⟨"ta".toList, "t".toList, "real".toList, false, []⟩]),
    ("b_t".toList, [⟨"tb".toList, "T".toList, "real".toList, false, []⟩])]
    [⟨.module_ "m".toList, [⟨"a".toList, "a".toList, "a_t".toList, true, []⟩, ⟨"b".toList, "b".toList, "b_t".toList, true, []⟩]⟩] none = none :=
  C67_same_component_violated
    (ps := [[⟨"a".toList, "a".toList, "a_t".toList, true, []⟩, ⟨"ta".toList, "t".toList, "real".toList, false, []⟩],
      [⟨"a".toList, "a".toList, "a_t".toList, true, []⟩],
      [⟨"b".toList, "b".toList, "b_t".toList, true, []⟩, ⟨"tb".toList, "T".toList, "real".toList, false, []⟩],
      [⟨"b".toList, "b".toList, "b_t".toList, true, []⟩]])
    (.node (fields := [⟨"ta".toList, "t".toList, "real".toList, false, []⟩]) (qs := [[⟨"ta".toList, "t".toList, "real".toList, false, []⟩]]) rfl
      (by decide) (.leaf (Or.inl rfl) .nil)
      (.node (fields := [⟨"tb".toList, "T".toList, "real".toList, false, []⟩]) (qs := [[⟨"tb".toList, "T".toList, "real".toList, false, []⟩]]) rfl
        (by decide) (.leaf (Or.inl rfl) .nil) .nil))
    (List.mem_cons_self ..) (List.mem_cons_of_mem _ (List.mem_cons_of_mem _ (List.mem_cons_self ..))) (by decide) (by decide) (by decide)
    (by decide) fuel

/-- Violation: an array section is imported with its indices, which is not a Fortran name (host_model.py:190-199,
host_cap.py:559-562). -/
theorem C68_section_violated {lib : Lib} {fuel n : Nat} {headers : List Header} {const : Option (Str × V)} {H : Host} {ps : List (List V)}
    {cap : Str} {reqs : List Str} {u : Use}
    (hb : build fuel lib headers const = some H) (hp : Paths lib (variablesOf headers const) ps) (hc : ∀ c ∈ const, c.1 = cap)
    (h1 : ∀ v ∈ variablesOf headers const, v.loc ≠ "1".toList) (hr : H.requests n ⟨[], []⟩ reqs = some u)
    {m : Str} {v : V} (hv : [v] ∈ ps) (hm : InModule headers m v) (hm1 : m ≠ []) (hm2 : m ≠ cap) (hw : v.std ∈ reqs) (hs : '(' ∈ v.loc) :
    (m, v.loc) ∈ H.locations cap u ∧ ¬ Chk.IsName v.loc :=
  ⟨(C68_imports_partial hb hp hc h1 hr m v.loc).2 ⟨hm1, hm2, [v], hv, .asked hw, hm, rfl⟩,
    fun h => MF.IsName.mem h (by decide) hs⟩

theorem ex_section : ((build 5 [] [⟨.module_ "m".toList, [⟨"hum".toList, "q(:, ix_w)".toList, "real".toList, false, []⟩, exIx]⟩] none).bind
    fun H => (H.requests 5 ⟨[], []⟩ ["hum".toList]).map fun u => H.locations "cap".toList u) =
      some [("m".toList, "q(:, ix_w)".toList), ("m".toList, "iw".toList)] := by
  decide +kernel

/-- Violation: an index that is the variable itself leads to an endless recursion. -/
theorem C68_self_index_violated (H : Host) (hb : build 5 [] [⟨.module_ "m".toList, [⟨"ix".toList, "q(ix)".toList, "integer".toList, false, []⟩]⟩]
    none = some H) (n : Nat) (u : Use) : H.request n u "ix".toList = none := by
  have hf : H.find "ix".toList = some (.var ⟨"ix".toList, "q(ix)".toList, "integer".toList, false, []⟩) := by
    have h : (build 5 [] [⟨.module_ "m".toList, [⟨"ix".toList, "q(ix)".toList, "integer".toList, false, []⟩]⟩] none).bind
      (fun H => H.find "ix".toList) = some (.var ⟨"ix".toList, "q(ix)".toList, "integer".toList, false, []⟩) := by decide +kernel
    rw [hb] at h
    exact h
  induction n generalizing u with
  | zero => rfl
  | succ n ih =>
    rw [Host.request, hf]
    have hi : refIndices (Ref.var ⟨"ix".toList, "q(ix)".toList, "integer".toList, false, []⟩).leaf.loc = ["ix".toList] := by decide +kernel
    simp only [hi]
    show Option.map _ (H.request n u "ix".toList) = none
    rw [ih]
    rfl

/-- Violation: an index in the name of a variable with components is not imported. -/
theorem C68_root_index_violated : ((build 5 [("t".toList, [exTemp])]
    [⟨.module_ "m".toList, [⟨"state".toList, "st(ix)".toList, "t".toList, true, []⟩, ⟨"ix".toList, "i".toList, "integer".toList, false, []⟩]⟩]
    none).bind fun H => (H.requests 5 ⟨[], []⟩ ["temp".toList]).map fun u => H.locations "cap".toList u) =
      some [("m".toList, "st(ix)".toList)] := by
  decide +kernel

end Ccpp.HM
