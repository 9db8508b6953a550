import Verif.Model.Inspect
/-!
# Specification for C98: what the statements of the inspection routines do
-/
namespace Ccpp.Inspect

/-- A value without the blanks at its end. -/
def rtrim (s : Str) : Str := (s.reverse.dropWhile (· == ' ')).reverse

/-- A value stored in a character variable of length `L`: cut, or filled with blanks. -/
def fit (L : Nat) (s : Str) : Str := s.take L ++ List.replicate (L - s.length) ' '

/-- The dummy arguments: the list (not allocated at first; elements may be undefined), the error code, the message. -/
structure St where
  arr : Option (List (Option Str))
  err : Option Nat
  msg : Option Str

/-- At the beginning nothing is defined. -/
def St.start : St := ⟨none, none, none⟩

/-- A statement that is executed.  `nm`, `mn` and `en` are the names of the list, of the message and of the error code,
`v` is the value of `suite_name`, `L` the length of the elements. -/
inductive Stmt (nm mn en v : Str) (L : Nat) : Str → St → St → Prop
  | alloc (n : Nat) (st : St) : st.arr = none →
      Stmt nm mn en v L ("allocate(".toList ++ nm ++ "(".toList ++ VD.dec n ++ "))".toList) st
        { st with arr := some (List.replicate n none) }
  | set (i : Nat) (x : Str) (a : List (Option Str)) (st : St) : st.arr = some a → 1 ≤ i → i ≤ a.length → '\'' ∉ x →
      Stmt nm mn en v L (nm ++ "(".toList ++ VD.dec i ++ ") = '".toList ++ x ++ "'".toList) st
        { st with arr := some (a.set (i - 1) (some (fit L x))) }
  | code (n : Nat) (st : St) : Stmt nm mn en v L (en ++ " = ".toList ++ VD.dec n) st { st with err := some n }
  | clear (st : St) : Stmt nm mn en v L (mn ++ " = ''".toList) st { st with msg := some [] }
  | message (st : St) :
      Stmt nm mn en v L ("write(".toList ++ mn ++ ", '(3a)')'No suite named ', trim(suite_name), ' found'".toList) st
        { st with msg := some ("No suite named ".toList ++ rtrim v ++ " found".toList) }

/-- A line that is not part of an if construct. -/
def Plain (l : Str) : Prop :=
  l ≠ "else".toList ∧ l ≠ "end if".toList ∧ ¬ "if(".toList <+: l ∧ ¬ "else if(".toList <+: l

/-- The lines of an if construct and its branches, each with the name that `suite_name` is compared with (none for
else).  The flag tells that this is the beginning of the construct. -/
inductive Construct : Bool → List Str → List (Option Str × List Str) → Prop
  | branch {first : Bool} {x : Str} {body rest : List Str} {bs : List (Option Str × List Str)} : '\'' ∉ x →
      (∀ l ∈ body, Plain l) → Construct false rest bs →
      Construct first (((if first then [] else "else ".toList) ++ "if(trim(suite_name) == '".toList ++ x ++ "') then".toList) ::
        (body ++ rest)) ((some x, body) :: bs)
  | otherwise {body : List Str} : (∀ l ∈ body, Plain l) → Construct false ("else".toList :: (body ++ ["end if".toList])) [(none, body)]
  | ending : Construct false ["end if".toList] []

/-- The branch that is executed: the first one with the right name (blanks at the end do not matter in Fortran). -/
inductive Pick (v : Str) : List (Option Str × List Str) → List Str → Prop
  | hit {x body bs} : rtrim v = rtrim x → Pick v ((some x, body) :: bs) body
  | miss {x b bs body} : rtrim v ≠ rtrim x → Pick v bs body → Pick v ((some x, b) :: bs) body
  | otherwise {body} : Pick v [(none, body)] body
  | none : Pick v [] []

/-- Execution of lines. -/
inductive Exec (nm mn en v : Str) (L : Nat) : List Str → St → St → Prop
  | nil (st : St) : Exec nm mn en v L [] st st
  | stmt {l ls a b c} : Plain l → Stmt nm mn en v L l a b → Exec nm mn en v L ls b c → Exec nm mn en v L (l :: ls) a c
  | ite {ls bs body rest a b c} : Construct true ls bs → Pick v bs body → Exec nm mn en v L body a b →
      Exec nm mn en v L rest b c → Exec nm mn en v L (ls ++ rest) a c

/-- The list is allocated and holds these names. -/
def Holds (L : Nat) (st : St) (names : List Str) : Prop := st.arr = some (names.map fun n => some (fit L n))

/-- A scheme occurs in a part. -/
inductive Contains : Part → Str → Prop
  | scheme (n : Str) : Contains (.scheme n) n
  | sub {p ps n} : p ∈ ps → Contains p n → Contains (.sub ps) n

/-- A name in Fortran and XML: letters, digits and underscores. -/
def IsName (s : Str) : Prop := s ≠ [] ∧ ∀ c ∈ s, isWordC c = true

/-- The suites have names, all different. -/
structure SuitesOk (suites : List Suite) : Prop where
  some : suites ≠ []
  names : ∀ s ∈ suites, IsName s.name
  nodup : (suites.map (·.name)).Nodup

end Ccpp.Inspect
