import Verif.Spec.Checkers
import Verif.Model.Text
/-!
# Specification for C58 and C59
-/
namespace Ccpp.FDecl

open Ccpp.Chk (balance)

/-- Texts separated by commas. -/
def commaJoin : List (List Char) → List Char
  | [] => []
  | [t] => t
  | t :: ts => t ++ ',' :: commaJoin ts

/-- No part of the text closes more parentheses than it opens. -/
def NoEarlyClose (s : List Char) : Prop := ∀ a b, s = a ++ b → 0 ≤ balance a

/-- The comma before `b` in `a ++ ',' :: b` is outside all parentheses. -/
def TopLevel (a : List Char) : Prop := balance a = 0

/-- `raw` are the parts of `s` between its top-level commas. -/
structure Parts (s : List Char) (raw : List (List Char)) : Prop where
  ne : raw ≠ []
  join : s = commaJoin raw
  closed : ∀ r ∈ raw, balance r = 0
  whole : ∀ r ∈ raw, ∀ a b, r = a ++ ',' :: b → ¬ TopLevel a

/-- The items of a list: its parts without surrounding blanks, and without empty ones. -/
def items (raw : List (List Char)) : List (List Char) := (raw.map strip).filter (· ≠ [])

/-! ## Declarations (C59) -/

/-- White space only. -/
def Blank (s : List Char) : Prop := ∀ c ∈ s, isWs c = true

/-- The name of an intrinsic type other than character, in upper or lower case. -/
inductive IntrinsicWord : List Char → Prop where
  | one {w} : lower w ∈ [['i','n','t','e','g','e','r'], ['r','e','a','l'], ['l','o','g','i','c','a','l'],
      ['c','o','m','p','l','e','x']] → IntrinsicWord w
  | two {d b p} : lower d = "double".toList → Blank b → lower p = "precision".toList →
      IntrinsicWord (d ++ b ++ p)

/-- The text between the parentheses of a kind selector, and the kind: `k` or `kind = k`. -/
inductive KindText : List Char → List Char → Prop where
  | plain {a k b} : Blank a → Blank b → KindText (a ++ k ++ b) k
  | keyed {a w b c k d} : Blank a → lower w = "kind".toList → Blank b → Blank c → Blank d →
      KindText (a ++ w ++ b ++ '=' :: (c ++ k ++ d)) k

/-- A kind: letters, digits and underscores. -/
def KindName (k : List Char) : Prop := k ≠ [] ∧ (∀ c ∈ k, isWordC c = true) ∧ lower k ≠ "kind".toList

/-- A character length without underscore: `*`, `:`, digits, or a name. -/
def LengthText (l : List Char) : Prop :=
  l = ['*'] ∨ l = [':'] ∨ (l ≠ [] ∧ ∀ c ∈ l, c.isDigit = true) ∨
    ∃ c r, l = c :: r ∧ c.isAlpha = true ∧ ∀ x ∈ r, x.isAlphanum = true

/-- What a type specification says: derived type or not, name, and kind. -/
structure TypeMeaning where
  ddt : Bool
  name : List Char
  kind : Option (List Char)

/-- `TypeText t m`: the text `t` specifies the type `m`. -/
inductive TypeText : List Char → TypeMeaning → Prop where
  | plain {w} : IntrinsicWord w → TypeText w ⟨false, w, none⟩
  | kind {w g s k} : IntrinsicWord w → Blank g → KindText s k → KindName k →
      TypeText (w ++ g ++ '(' :: (s ++ [')'])) ⟨false, w, some k⟩
  | character {w g a n b c l d} : lower w = "character".toList → Blank g → Blank a →
      lower n = "len".toList → Blank b → Blank c → LengthText l → Blank d →
      TypeText (w ++ g ++ '(' :: (a ++ n ++ b ++ '=' :: (c ++ l ++ d) ++ [')']))
        ⟨false, w, some ("len=".toList ++ l)⟩
  | derived {w g a n b} : lower w = "type".toList ∨ lower w = "class".toList → Blank g → Blank a →
      Chk.IsName n → Blank b → TypeText (w ++ g ++ '(' :: (a ++ n ++ b ++ [')'])) ⟨true, n, some n⟩

/-- The text between the parentheses of an array specification. -/
structure DimText (t : List Char) : Prop where
  closed : balance t = 0
  early : NoEarlyClose t
  chars : ∀ c ∈ t, c ≠ '=' ∧ c ≠ '"' ∧ c ≠ '\''

/-- What an attribute says. -/
inductive Attr where
  | flag (name : List Char)
  | dims (text : List Char)
  | intent (value : List Char)
deriving DecidableEq

/-- Attributes without argument. -/
def flags : List (List Char) :=
  ["allocatable", "asynchronous", "external", "intrinsic", "optional", "parameter", "pointer", "private",
   "protected", "public", "save", "target", "value", "volatile"].map String.toList

/-- `AttrText t a`: the text `t` is the attribute `a` (names, dimensions and intents in lower case). -/
inductive AttrText : List Char → Attr → Prop where
  | flag {p w q} : Blank p → lower w ∈ flags → Blank q → AttrText (p ++ w ++ q) (.flag (lower w))
  | dims {p w g t q} : Blank p → lower w = "dimension".toList → Blank g → DimText t → Blank q →
      AttrText (p ++ (w ++ g ++ '(' :: (t ++ [')'])) ++ q) (.dims ('(' :: (lower t ++ [')'])))
  | intent {p w g a v b q} : Blank p → lower w = "intent".toList → Blank g → Blank a →
      (∀ c ∈ v, c.isAlpha = true) → v ≠ [] → Blank b → Blank q →
      AttrText (p ++ (w ++ g ++ '(' :: (a ++ v ++ b ++ [')'])) ++ q) (.intent (lower v))

/-- `EntText t n d`: the text `t` declares the variable `n` with its own dimensions `d`, if any; an
initial value is allowed. -/
inductive EntText : List Char → List Char → Option (List Char) → Prop where
  | scalar {p n q} : Blank p → Chk.IsName n → Blank q → EntText (p ++ n ++ q) n none
  | array {p n g t q} : Blank p → Chk.IsName n → Blank g → DimText t → Blank q →
      EntText (p ++ (n ++ g ++ '(' :: (t ++ [')'])) ++ q) n (some ('(' :: (t ++ [')'])))
  | init {e n d v} : EntText e n d → '=' ∉ e → '=' ∉ v → balance v = 0 →
      (∀ a b, v = a ++ ',' :: b → ¬ TopLevel a) → EntText (e ++ '=' :: v) n d

/-- `Declares line m attrs vars`: the line is a declaration statement with the type `m`, the attributes
`attrs` and the variables `vars` (name and own dimensions).  It may be followed by a comment; there is no
other exclamation mark, and at most one double colon.  The double colon may be left out if there are no
attributes (`short`). -/
inductive Declares : List Char → TypeMeaning → List Attr → List (List Char × Option (List Char)) → Prop where
  | mk {ind t m gap tail} {as : List (List Char × Attr)} {es : List (List Char × List Char × Option (List Char))} :
      Blank ind → TypeText t m → Blank gap → (∀ p ∈ as, AttrText p.1 p.2) → (∀ e ∈ es, EntText e.1 e.2.1 e.2.2) →
      '!' ∉ t ++ (gap ++ as.flatMap (fun p => ',' :: p.1)) ++ commaJoin (es.map (·.1)) →
      ¬ [':', ':'] <:+: gap ++ as.flatMap (fun p => ',' :: p.1) ++ [':'] →
      ¬ [':', ':'] <:+: commaJoin (es.map (·.1)) →
      (Blank tail ∨ ∃ a b, Blank a ∧ tail = a ++ '!' :: b) →
      Declares (ind ++ (t ++ (gap ++ as.flatMap (fun p => ',' :: p.1)) ++
        [':', ':'] ++ commaJoin (es.map (·.1))) ++ tail) m (as.map (·.2)) (es.map (·.2))
  | short {ind t m gap tail} {es : List (List Char × List Char × Option (List Char))} :
      Blank ind → TypeText t m → Blank gap → gap ≠ [] → es ≠ [] → (∀ e ∈ es, EntText e.1 e.2.1 e.2.2) →
      '!' ∉ t ++ (gap ++ commaJoin (es.map (·.1))) → ¬ [':', ':'] <:+: gap ++ commaJoin (es.map (·.1)) →
      (Blank tail ∨ ∃ a b, Blank a ∧ tail = a ++ '!' :: b) →
      Declares (ind ++ (t ++ (gap ++ commaJoin (es.map (·.1)))) ++ tail) m [] (es.map (·.2))

/-- The dimensions given by the attributes. -/
def attrDims (attrs : List Attr) : Option (List Char) :=
  (attrs.filterMap fun | .dims t => some t | _ => none).getLast?

/-- The intent given by the attributes. -/
def attrIntent (attrs : List Attr) : Option (List Char) :=
  (attrs.filterMap fun | .intent v => some v | _ => none).getLast?

end Ccpp.FDecl
