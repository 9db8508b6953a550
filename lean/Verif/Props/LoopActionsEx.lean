import Verif.Props.LoopNames
/-!
# Cases for C96
-/
namespace Ccpp.LoopAct

/-- A host model with the bounds of the chunk, called `col_start` and the given name. -/
private def host (e : Str) (std : Str) : Option Str :=
  if std = nBeg then some "col_start".toList else if std = nEnd then some e else none

/-- A host model that only has the extent. -/
private def host2 (std : Str) : Option Str := if std = nExt then some "nlon".toList else none

/-- A decidable form of the conditions on names. -/
private def named (x : Str) : Bool := (match x.head? with | some c => isLetter c | none => false) && x.all isWordC

private theorem named_is {x : Str} (h : named x = true) : IsName x := by
  unfold named at h
  rw [Bool.and_eq_true] at h
  refine ⟨?_, fun c hc => List.all_eq_true.1 h.2 c hc⟩
  cases hx : x.head? with
  | none => rw [hx] at h; cases h.1
  | some c => rw [hx] at h; exact ⟨c, rfl, h.1⟩

/-- The hypotheses of C96_partial are met, and the text is as expected: the extent from the bounds … -/
example : ∃ g, analyze (host "col_end".toList) ⟨[], [], []⟩ [.need nBeg, .need nExt, .need nExt] = some g ∧
    ((g.own ++ g.args).map (·.2)).Nodup ∧ (∀ p ∈ g.own ++ g.args, IsName p.2) ∧
    writeLoops g g.loops = some ["ncol = col_end - col_start + 1".toList] := by
  refine ⟨⟨[(nExt, "ncol".toList)], [(nBeg, "col_start".toList), (nEnd, "col_end".toList)],
    [⟨nExt, [nBeg, nEnd], "ncol".toList,
      "{horizontal_loop_extent} = {horizontal_loop_end} - {horizontal_loop_begin} + 1".toList⟩]⟩, ?_, ?_, ?_, ?_⟩
  · unfold nBeg nExt nEnd; decide +kernel
  · decide +kernel
  · intro p hp
    have : ∀ p ∈ [(nExt, "ncol".toList), (nBeg, "col_start".toList), (nEnd, "col_end".toList)], named p.2 = true := by
      decide +kernel
    exact named_is (this p hp)
  · decide +kernel

/-- … and the bounds from the extent. -/
example : ∃ g, analyze host2 ⟨[], [], []⟩ [.need nBeg, .need nEnd] = some g ∧
    ((g.own ++ g.args).map (·.2)).Nodup ∧
    writeLoops g g.loops = some ["one = 1".toList, "ncol = nlon".toList] := by
  refine ⟨⟨[(nBeg, "one".toList), (nEnd, "ncol".toList)], [(nExt, "nlon".toList)],
    [⟨nBeg, [one], "one".toList, "{horizontal_loop_begin} = 1".toList⟩,
     ⟨nEnd, [nExt], "ncol".toList, "{horizontal_loop_end} = {horizontal_loop_extent}".toList⟩]⟩, ?_, ?_, ?_⟩
  · unfold nBeg nExt nEnd; decide +kernel
  · decide +kernel
  · decide +kernel

/-- C96: the name of a computed variable is not compared with the arguments of the group: with a host model whose last
column is `ncol`, the group overwrites its own argument, and the extent is not what it should be. -/
theorem C96_name_violated : ∃ outer g, (∀ std l, outer std = some l → IsName l) ∧
    analyze outer ⟨[], [], []⟩ [.need nExt] = some g ∧
    writeLoops g g.loops = some ["ncol = ncol - col_start + 1".toList] ∧
    (nEnd, "ncol".toList) ∈ g.args ∧ (nExt, "ncol".toList) ∈ g.own := by
  refine ⟨host "ncol".toList, ⟨[(nExt, "ncol".toList)], [(nBeg, "col_start".toList), (nEnd, "ncol".toList)],
    [⟨nExt, [nBeg, nEnd], "ncol".toList,
      "{horizontal_loop_extent} = {horizontal_loop_end} - {horizontal_loop_begin} + 1".toList⟩]⟩, ?_, ?_, ?_, ?_, ?_⟩
  · intro std l h
    unfold host at h
    split at h
    · rw [← Option.some.inj h]; exact named_is (by decide +kernel)
    · split at h
      · rw [← Option.some.inj h]; exact named_is (by decide +kernel)
      · cases h
  · unfold nBeg nExt nEnd; decide +kernel
  · decide +kernel
  · decide +kernel
  · decide +kernel

/-- C96: a bound that is created by a scheme of the group is used at the start of the group, before the scheme sets it:
the statement reads a variable of the group that no statement before it sets. -/
theorem C96_created_violated : ∃ outer g,
    analyze outer ⟨[], [], []⟩ [.create nEnd "last".toList, .need nExt] = some g ∧
    ((g.own ++ g.args).map (·.2)).Nodup ∧
    writeLoops g g.loops = some ["ncol = last - first + 1".toList] ∧ (nEnd, "last".toList) ∈ g.own := by
  refine ⟨fun std => if std = nBeg then some "first".toList else none,
    ⟨[(nEnd, "last".toList), (nExt, "ncol".toList)], [(nBeg, "first".toList)],
    [⟨nExt, [nBeg, nEnd], "ncol".toList,
      "{horizontal_loop_extent} = {horizontal_loop_end} - {horizontal_loop_begin} + 1".toList⟩]⟩, ?_, ?_, ?_, ?_⟩
  · unfold nBeg nExt nEnd; decide +kernel
  · decide +kernel
  · decide +kernel
  · decide +kernel

end Ccpp.LoopAct
