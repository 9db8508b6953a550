import Verif.Model.Preproc
/-!
# Model of the `#if` expression evaluator: `preproc_bool` and
`preproc_item_value`, scripts/parse_tools/preprocess.py:24-132
-/
namespace Ccpp.Preproc

/-- Python values that occur in evaluation: a definition without a value is `None`
(framework_env.py:125-128), all other definitions are strings
(framework_env.py:125-129, preprocess.py:360); literals are integers. -/
inductive V where
  | bool (b : Bool) | int (i : Int) | str (s : List Char) | none
deriving Repr, DecidableEq

/-- Comparison operators of Python's `ast` (`other` covers `is`, `in`, …).
preprocess.py:40-134 -/
inductive CmpOp where | eq | ne | gt | ge | lt | le | other
deriving Repr, DecidableEq

/-- The Python syntax trees `ast.parse` yields for conditions.  `a and b and c`
is *one* `BoolOp` with three values: `boolop isAnd a b [c]`.
Python library (ast), preprocess.py:40-134 -/
inductive Ex where
  | num (i : Int)
  | name (s : Name)
  /-- `defined(s)` -/
  | defd (s : Name)
  /-- `notdefined(s)` -/
  | ndefd (s : Name)
  | boolop (isAnd : Bool) (a b : Ex) (more : List Ex)
  | not (e : Ex)
  | cmp (l : Ex) (rest : List (CmpOp × Ex))
  | bad

/-- Errors: `preproc` is PreprocError, `typeErr` an uncaught TypeError.
preprocess.py:17-22, 40-134 -/
inductive EErr where | preproc | typeErr
deriving Repr, DecidableEq

/-- Definitions as the evaluator sees them: name → value (`none` value = `None`).
preprocess.py:40-134 -/
abbrev VDefs := List (Name × Option (List Char))

/-- `preproc_defs[k]` Python library (dict), preprocess.py:40-134 -/
def VDefs.get? (d : VDefs) (k : Name) : Option (Option (List Char)) :=
  (d.find? (fun p => p.1 == k)).map (·.2)

/-- Python `int(x)`; `ok none` is a ValueError, `error` a TypeError.
`toInt` is `int` on strings (a parameter). Python library, preprocess.py:40-134 -/
def pyInt (toInt : List Char → Option Int) : V → Except EErr (Option Int)
  | .bool b => .ok (some (if b then 1 else 0))
  | .int i => .ok (some i)
  | .str s => .ok (toInt s)
  | .none => .error .typeErr

/-- preproc_bool, preprocess.py:24-36 -/
def preprocBool (toInt : List Char → Option Int) (v : V) : Except EErr Bool :=
  match v with
  | .bool b => .ok b
  | v =>
    match pyInt toInt v with
    | .error e => .error e
    | .ok (some i) => .ok (i != 0)
    | .ok none => .ok (v != .str ['0'])

/-- Python `==` on these values: `True == 1`, strings never equal numbers.
Python library, preprocess.py:40-134 -/
def pyEq : V → V → Bool
  | .bool a, .bool b => a == b
  | .bool a, .int j => (if a then 1 else 0) == j
  | .int i, .bool b => i == (if b then 1 else 0)
  | .int i, .int j => i == j
  | .str a, .str b => a == b
  | .none, .none => true
  | _, _ => false

/-- One comparison, preprocess.py:94-118 -/
def cmp1 (toInt : List Char → Option Int) (op : CmpOp) (value : Bool) (l r : V) :
    Except EErr Bool :=
  match op with
  | .eq => .ok (value && pyEq l r)
  | .ne => .ok (value && !pyEq l r)
  | op =>
    match pyInt toInt l with
    | .error e => .error e
    | .ok none => .ok false
    | .ok (some i) =>
      match pyInt toInt r with
      | .error e => .error e
      | .ok none => .ok false
      | .ok (some j) =>
        match op with
        | .gt => .ok (value && decide (i > j))
        | .ge => .ok (value && decide (i ≥ j))
        | .lt => .ok (value && decide (i < j))
        | .le => .ok (value && decide (i ≤ j))
        | _ => .error .preproc

mutual
/-- preproc_item_value, preprocess.py:40-132.  Note lines 69-70: only the first two
operands of a BoolOp are looked at. -/
def eval (toInt : List Char → Option Int) (d : VDefs) : Ex → Except EErr V
  | .num i => .ok (.int i)
  | .name s =>
    match d.get? s with
    | some (some v) => .ok (.str v)
    | some none => .ok .none
    | none => .ok (.str s)
  | .defd s => .ok (.bool (d.get? s).isSome)
  | .ndefd s => .ok (.bool (d.get? s).isNone)
  | .boolop isAnd a b _ =>
    match eval toInt d a with
    | .error e => .error e
    | .ok va =>
    match eval toInt d b with
    | .error e => .error e
    | .ok vb =>
    match preprocBool toInt va with
    | .error e => .error e
    | .ok x =>
      if isAnd then
        if x then (preprocBool toInt vb).map .bool else .ok (.bool false)
      else
        if x then .ok (.bool true) else (preprocBool toInt vb).map .bool
  | .not e =>
    match eval toInt d e with
    | .error e => .error e
    | .ok v => (preprocBool toInt v).map (fun b => .bool (!b))
  | .cmp l rest =>
    match eval toInt d l with
    | .error e => .error e
    | .ok lv => (evalCmp toInt d lv true rest).map .bool
  | .bad => .error .preproc
/-- The loop of preprocess.py:90-119 (the left value is never advanced). -/
def evalCmp (toInt : List Char → Option Int) (d : VDefs) (lv : V) (value : Bool) :
    List (CmpOp × Ex) → Except EErr Bool
  | [] => .ok value
  | (op, r) :: rest =>
    match eval toInt d r with
    | .error e => .error e
    | .ok rv =>
      match cmp1 toInt op value lv rv with
      | .error e => .error e
      | .ok v => evalCmp toInt d lv v rest
end

/-- parse_preproc_line, lines 183-184: the truth value of a parsed condition. -/
def condValue (toInt : List Char → Option Int) (d : VDefs) (e : Ex) : Except EErr Bool :=
  match eval toInt d e with
  | .error e => .error e
  | .ok v => preprocBool toInt v

end Ccpp.Preproc
