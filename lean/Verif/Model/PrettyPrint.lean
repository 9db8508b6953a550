import Verif.Model.Text
/-!
# Model of the printed form of a datatable: `scripts/ccpp_datafile.py`, _format_line and table_entry_pretty_print
-/
namespace Ccpp.Pretty

/-- Notation: a Python string. -/
abbrev Str := List Char

/-- _indent_str, ccpp_datafile.py:33, 736-739 -/
def indentStr (indent : Nat) : Str := (List.replicate indent "  ".toList).flatten

/-- The wrap points, ccpp_datafile.py:773-790, with their offset.  (`in_squote` and `in_dquote` are never set, so every
blank is a wrap point.) -/
def wrapPoints : Nat → Str → List Nat
  | _, [] => []
  | i, c :: s => if c == ' ' then i :: wrapPoints (i + 1) s else wrapPoints (i + 1) s

/-- The choice of the wrap point, ccpp_datafile.py:796-813: the last one that is good, otherwise the first one. -/
def choose (points : List Nat) (lineWrap : Int) : Option Nat :=
  let good := points.filter fun (x : Nat) => decide ((x : Int) ≤ lineWrap)
  if !good.isEmpty then good.max? else if !points.isEmpty then points.min? else none

theorem wrapPoints_iff : ∀ (i : Nat) (s : Str) (w : Nat), w ∈ wrapPoints i s ↔ ∃ k, w = i + k ∧ s[k]? = some ' '
  | i, [], w => by simp [wrapPoints]
  | i, c :: s, w => by
    unfold wrapPoints
    have ih := wrapPoints_iff (i + 1) s w
    constructor
    · intro h
      split at h
      · next hc =>
        rcases List.mem_cons.1 h with rfl | h
        · exact ⟨0, rfl, by simpa using hc⟩
        · obtain ⟨k, rfl, hk⟩ := ih.1 h
          exact ⟨k + 1, by omega, by simpa using hk⟩
      · obtain ⟨k, rfl, hk⟩ := ih.1 h
        exact ⟨k + 1, by omega, by simpa using hk⟩
    · rintro ⟨k, rfl, hk⟩
      cases k with
      | zero =>
        have : c = ' ' := by simpa using hk
        rw [if_pos (by simpa using this)]
        exact List.mem_cons_self
      | succ k =>
        have : i + (k + 1) ∈ wrapPoints (i + 1) s := ih.2 ⟨k, by omega, by simpa using hk⟩
        split
        · exact List.mem_cons_of_mem _ this
        · exact this

theorem choose_mem {points : List Nat} {lineWrap : Int} {w : Nat} (h : choose points lineWrap = some w) : w ∈ points := by
  unfold choose at h
  simp only at h
  split at h
  · exact (List.mem_filter.1 (List.max?_mem h)).1
  · split at h
    · exact List.min?_mem h
    · cases h

theorem strip_length (s : Str) : (strip s).length ≤ s.length := by
  unfold strip lstrip rstrip
  refine Nat.le_trans (List.dropWhile_sublist _).length_le ?_
  rw [List.length_reverse]
  refine Nat.le_trans (List.dropWhile_sublist _).length_le ?_
  rw [List.length_reverse]
  exact Nat.le_refl _

/-- _format_line, ccpp_datafile.py:742-819 -/
def formatLine (lineIn : Str) (indent : Nat) (lineWrap : Int) (increaseIndent : Bool := true) : Str :=
  let line := strip lineIn
  let curr := (indentStr indent).length
  if lineWrap ≤ 0 ∨ ((line.length + curr : Nat) : Int) ≤ lineWrap then indentStr indent ++ line ++ "\n".toList
  else
    match _h : choose (wrapPoints curr line) lineWrap with
    | some point =>
      indentStr indent ++ line.take (point - curr) ++ "\n".toList ++
        formatLine (line.drop (point - curr + 1)) (if increaseIndent then indent + 2 else indent) lineWrap false
    | none => indentStr indent ++ line ++ "\n".toList
termination_by lineIn.length
decreasing_by
  have hm := choose_mem _h
  obtain ⟨k, hk, hs⟩ := (wrapPoints_iff _ _ _).1 hm
  have hlt : k < (strip lineIn).length := by
    have := List.getElem?_eq_some_iff.1 hs
    exact this.1
  have := strip_length lineIn
  rw [List.length_drop]
  omega

/-- An element of the datatable with its tag, attributes, text (empty if there is none) and children,
ccpp_datafile.py:822 -/
inductive Entry where
  | mk (tag : Str) (attrib : List (Str × Str)) (text : Str) (kids : List Entry)

/-- The text of the opening tag, ccpp_datafile.py:833-842 -/
def opening (tag : Str) (attrib : List (Str × Str)) : Str :=
  "<".toList ++ tag ++ (attrib.map fun a => " ".toList ++ a.1 ++ "=".toList ++ a.2).flatten

mutual
/-- table_entry_pretty_print, ccpp_datafile.py:822-866 -/
def pretty (indent : Nat) (lineWrap : Int) : Entry → Str
  | .mk tag attrib text kids =>
    if !kids.isEmpty || !text.isEmpty then
      let output := formatLine (opening tag attrib ++ ">".toList) indent lineWrap
      let output := output ++ prettyAll (indent + 1) lineWrap kids
      let output := if !text.isEmpty then output ++ formatLine text (indent + 1) lineWrap else output
      rstrip output ++ "\n".toList ++ formatLine ("</".toList ++ tag ++ ">".toList) indent lineWrap
    else formatLine (opening tag attrib ++ " />".toList) indent lineWrap

/-- The loop over the children, ccpp_datafile.py:848-852 -/
def prettyAll (indent : Nat) (lineWrap : Int) : List Entry → Str
  | [] => []
  | e :: es => pretty indent lineWrap e ++ prettyAll indent lineWrap es
end

end Ccpp.Pretty
