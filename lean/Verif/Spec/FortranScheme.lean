import Verif.Spec.FortranDecl
import Verif.Model.FortranDecl
/-!
# Specification for C60
-/
namespace Ccpp.FSub

open Ccpp.FDecl (Blank commaJoin Declares Attr TypeMeaning attrDims attrIntent VarRec)

/-- The text begins with the words (in lower or upper case), with any blanks before each of them. -/
def Begins : List (List Char) → List Char → Prop
  | [], _ => True
  | w :: ws, s => ∃ b v r, s = b ++ v ++ r ∧ Blank b ∧ lower v = w ∧ Begins ws r

/-- The variables declared by a statement with type `m` and attributes `attrs`, see C59. -/
def declared (m : TypeMeaning) (attrs : List Attr) (vars : List (List Char × Option (List Char))) : List VarRec :=
  vars.map fun v =>
    { name := v.1, ddt := m.ddt, type := m.name, kind := m.kind,
      optional := attrs.contains (.flag "optional".toList),
      allocatable := attrs.contains (.flag "allocatable".toList),
      intent := attrIntent attrs,
      dims := v.2.getD ((attrDims attrs).getD "()".toList) }

/-- `Header s name args`: the statement begins a subroutine. -/
inductive Header : List Char → List Char → List (List Char) → Prop where
  | mk {ind pre w g name h rest} {args : List (List Char × List Char)} :
      Blank ind →
      (pre = [] ∨ ∃ p b, pre = p ++ b ∧ lower p ∈ ["recursive".toList, "pure".toList, "elemental".toList] ∧
        Blank b ∧ b ≠ []) →
      lower w = "subroutine".toList → Blank g → g ≠ [] → Chk.IsName name → Blank h → args ≠ [] →
      (∀ a ∈ args, ∃ p q, Blank p ∧ Blank q ∧ Chk.IsName a.2 ∧ a.1 = p ++ a.2 ++ q) →
      Header (ind ++ pre ++ w ++ g ++ name ++ h ++ '(' :: (commaJoin (args.map (·.1)) ++ ')' :: rest)) name
        (args.map (·.2))
  | empty {ind pre w g name h b rest} :
      Blank ind →
      (pre = [] ∨ ∃ p b, pre = p ++ b ∧ lower p ∈ ["recursive".toList, "pure".toList, "elemental".toList] ∧
        Blank b ∧ b ≠ []) →
      lower w = "subroutine".toList → Blank g → g ≠ [] → Chk.IsName name → Blank h → Blank b →
      Header (ind ++ pre ++ w ++ g ++ name ++ h ++ '(' :: (b ++ ')' :: rest)) name []
  | none {ind pre w g name h} :
      Blank ind →
      (pre = [] ∨ ∃ p b, pre = p ++ b ∧ lower p ∈ ["recursive".toList, "pure".toList, "elemental".toList] ∧
        Blank b ∧ b ≠ []) →
      lower w = "subroutine".toList → Blank g → g ≠ [] → Chk.IsName name → Blank h →
      Header (ind ++ pre ++ w ++ g ++ name ++ h) name []

/-- A statement that has no meaning for the argument table: a comment without table marker, or a statement
without `, intent(` that does not begin or end a program unit. -/
structure Quiet (s : List Char) : Prop where
  text : ¬ Blank s
  sub : ¬ Begins ["subroutine".toList] s
  presub : ∀ p ∈ ["recursive".toList, "pure".toList, "elemental".toList], ¬ Begins [p, "subroutine".toList] s
  endsub : ¬ Begins ["end".toList, "subroutine".toList] s
  endmod : ¬ Begins ["end".toList, "module".toList] s
  contains : ¬ Begins ["contains".toList] s
  use : ¬ Begins ["use".toList, "only".toList] s ∧
    ¬ Begins ["use".toList, [','], "intrinsic".toList, "::".toList, "only".toList] s
  marker : ∀ a b, lower s ≠ a ++ "arg_table_".toList ++ b
  intent : Begins [['!']] s ∨ ∀ a r, s = a ++ ',' :: r → ¬ Begins ["intent".toList, ['(']] r

/-- A statement of the body of a subroutine, and the arguments it declares. -/
inductive Body : List Char → List VarRec → Prop where
  | arg {s m attrs vars} : Declares s m attrs vars → (∃ v, Attr.intent v ∈ attrs) →
      Body s (declared m attrs vars)
  | quiet {s} : Quiet s → Body s []

/-- A statement that does not end a program unit, and is not a table marker. -/
structure Inside (s : List Char) : Prop where
  endsub : ¬ Begins ["end".toList, "subroutine".toList] s
  endmod : ¬ Begins ["end".toList, "module".toList] s
  marker : ∀ a b, lower s ≠ a ++ "arg_table_".toList ++ b

/-- What follows the body up to the first `end subroutine`: nothing, or `contains` and internal procedures. -/
def Internal (l : List (List Char)) : Prop :=
  l = [] ∨ ∃ c ss, l = c :: ss ∧ Begins ["contains".toList] c ∧ ∀ s ∈ l, Inside s

/-- The end of a subroutine. -/
def Ends (s : List Char) : Prop := Begins ["end".toList, "subroutine".toList] s

/-- The end of a module; something must follow the word. -/
def EndsModule (s : List Char) : Prop :=
  ∃ b v b' v' c r, s = b ++ v ++ (b' ++ v' ++ c :: r) ∧ Blank b ∧ lower v = "end".toList ∧ Blank b' ∧
    lower v' = "module".toList ∧ isWs c = true

/-- The comment that announces an argument table. -/
def Marker (s : List Char) : Prop :=
  ∃ b c x b' v n r, s = b ++ '!' :: c :: (x ++ (b' ++ v ++ (n ++ r))) ∧ Blank b ∧ (c = '!' ∨ c = '>') ∧
    (x = [] ∨ ∃ a w, x = a ++ w ∧ Blank a ∧ lower w = "\\section".toList) ∧ Blank b' ∧
    lower v = "arg_table_".toList ∧ Chk.IsName n

/-- `Stops e r left`: the statement `e`, followed by `r` on its line, is the end of the scheme; the reader goes
on with `left`. -/
def Stops (e : List Char) (r left : List (List Char)) : Prop :=
  (Ends e ∧ r = [] ∧ left = []) ∨ (EndsModule e ∧ left = r) ∨ (Marker e ∧ left = e :: r)

/-- Every argument is declared exactly once, and nothing else is declared with an intent: the argument names
and the declared names are the same, without repetition (but for letter case). -/
def DeclaredOnce (args : List (List Char)) (vars : List VarRec) : Prop :=
  (args.map lower).Nodup ∧ (args.map lower).Perm (vars.map fun v => lower v.name)

end Ccpp.FSub
