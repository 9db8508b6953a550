import Verif.Model.XmlFile
/-!
# Specification for C65: XML files are read back as they were written

Only the type of elements and the function `strip` (removal of blanks at both ends) are shared with the model.
-/
namespace Ccpp.XF

/-- A character of a name of an element or attribute. -/
def NameChar (c : Char) : Prop := c.isAlphanum = true ∨ c = '_' ∨ c = '-' ∨ c = '.'

/-- A name of an element or attribute. -/
def Name (n : List Char) : Prop := n ≠ [] ∧ ∀ c ∈ n, NameChar c

mutual
/-- The tags and attributes have legal names; values and texts are arbitrary (characters that XML
forbids and carriage returns in texts are outside the model). -/
def Elem.Named : Elem → Prop
  | .mk tag attrs _ kids _ => Name tag ∧ (∀ a ∈ attrs, Name a.1) ∧ allNamed kids
/-- The same for a list of elements. -/
def allNamed : List Elem → Prop
  | [] => True
  | e :: es => e.Named ∧ allNamed es
end

mutual
/-- `e'` is `e` except for blanks around texts: an element without sub-elements has exactly the stripped text. -/
def Same : Elem → Elem → Prop
  | .mk tag attrs text kids tail, .mk tag' attrs' text' kids' tail' =>
    tag' = tag ∧ attrs' = attrs ∧ strip text' = strip text ∧ (kids = [] → text' = strip text) ∧ allSame kids kids' ∧
      strip tail' = strip tail
/-- The same for lists of elements. -/
def allSame : List Elem → List Elem → Prop
  | [], [] => True
  | e :: es, e' :: es' => Same e e' ∧ allSame es es'
  | _, _ => False
end

mutual
/-- What can be written: the tag of an element with text or sub-elements has more than one letter, or the element has
attributes; and the attributes of an element without text and sub-elements contain no slash. -/
def Elem.Writable : Elem → Prop
  | .mk tag attrs text kids _ =>
    (if text = [] ∧ kids = [] then ∀ a ∈ attrs, '/' ∉ a.2 else tag.length ≥ 2 ∨ attrs ≠ []) ∧ allWritable kids
/-- The same for a list of elements. -/
def allWritable : List Elem → Prop
  | [] => True
  | e :: es => e.Writable ∧ allWritable es
end

/-- The text after an element. -/
def Elem.tail : Elem → List Char
  | .mk _ _ _ _ t => t

end Ccpp.XF
