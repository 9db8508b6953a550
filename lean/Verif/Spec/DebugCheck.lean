import Verif.Model.DebugCheck
/-! # C83: what the debug checks are meant to do, in words of the metadata and of Fortran -/
namespace Ccpp.DC
open PB (Str)

/-- The value of the variable with a standard name, as the group sees it: a variable of the group, an argument of the group, or a variable of the
suites, in this order. -/
def value (c : Ctx) (s : State) (std : Str) : Option Int := (look (c.group :: c.call :: c.suites) std).bind s.num

/-- `Meta c s arg d n`: by the metadata, dimension `d` of the variable has `n` elements in this call.  `arg`: the variable is an argument of the
group.  Loop dimensions are those of the run phase; in the other phases the whole horizontal dimension is meant. -/
inductive Meta (c : Ctx) (s : State) (arg : Bool) : Str → Int → Prop
  | index {d : Str} {i : Int} : ':' ∉ d → value c s d = some i → Meta c s arg d 1
  | horizontalExtent {d : Str} {n : Int} : ':' ∈ d → VC.isHoriz d = true → c.run = true → arg = true → c.loopExt = true →
      value c s "horizontal_loop_extent".toList = some n → Meta c s arg d n
  | horizontalLoop {d : Str} {b e : Int} : ':' ∈ d → VC.isHoriz d = true → c.run = true → ¬ (arg = true ∧ c.loopExt = true) →
      value c s "horizontal_loop_begin".toList = some b → value c s "horizontal_loop_end".toList = some e → Meta c s arg d (e - b + 1)
  | horizontalAll {d : Str} {n : Int} : ':' ∈ d → VC.isHoriz d = true → c.run = false →
      value c s "horizontal_dimension".toList = some n → Meta c s arg d n
  | range {lo hi : Str} {l h : Int} : ':' ∉ lo → ':' ∉ hi → VC.isHoriz (lo ++ ':' :: hi) = false →
      value c s lo = some l → value c s hi = some h → Meta c s arg (lo ++ ':' :: hi) (h - l + 1)

/-- The number of elements of an array. -/
def total (a : Arr) : Int := (a.bounds.map extent).prod

/-- The variables whose values a statement reads. -/
def Len.reads : Len → List Str
  | .one => []
  | .ext u l => [u, l]
/-- The variables whose values a statement reads. -/
def Sub.reads : Sub → List Str
  | .all => []
  | .at n => [n]
  | .rng l u => [l, u]
/-- The variables whose values a statement reads. -/
def Ix.reads : Ix → List Str
  | .nm n => [n]
  | .one => []
  | .ext u l => [u, l]
/-- The variables whose values a statement reads. -/
def Basic.reads : Basic → List Str
  | .copy _ x => [x]
  | .check _ subs lens => subs.flatMap Sub.reads ++ lens.flatMap Len.reads
  | .elem _ _ ixs => ixs.flatMap Ix.reads

/-- No statement of the checks reads one of the variables `I` (apart from the literal 1). -/
def ReadsNone (I : List Str) (gs : List Guarded) : Prop :=
  ∀ g ∈ gs, ∀ b ∈ g.body, ∀ n ∈ b.reads, n ∈ I → n = "1".toList

/-- The condition of the variable holds. -/
def Active (ev : Str → (Str → Option Int) → Bool) (c : Ctx) (s : State) (active : Str) : Prop :=
  ∃ t ns, CD.capgen c.scopes active = some (t, ns) ∧ (t = ".true.".toList ∨ ev t s.mem = true)

/-- The condition of the variable does not hold. -/
def Inactive (ev : Str → (Str → Option Int) → Bool) (c : Ctx) (s : State) (active : Str) : Prop :=
  ∃ t ns, CD.capgen c.scopes active = some (t, ns) ∧ t ≠ ".true.".toList ∧ ev t s.mem = false

/-- Execution goes on, and nothing has changed but the variables `I`. -/
def Quiet (I : List Str) (s : State) (o : Outcome) : Prop :=
  ∃ s', o = .cont s' ∧ s'.arr = s.arr ∧ ∀ n, n ∉ I → s'.mem n = s.mem n

/-- The group knows a variable with this standard name. -/
def Known (c : Ctx) (std : Str) : Prop := ∃ l, look (c.group :: c.call :: c.suites) std = some l

/-- The group has everything that the text of a dimension needs. -/
def Resolvable (c : Ctx) (arg : Bool) (d : Str) : Prop :=
  (':' ∉ d ∧ Known c d) ∨
  (':' ∈ d ∧ VC.isHoriz d = true ∧
    ((c.run = true ∧ arg = true ∧ c.loopExt = true ∧ Known c "horizontal_loop_extent".toList) ∨
     (c.run = true ∧ ¬ (arg = true ∧ c.loopExt = true) ∧ Known c "horizontal_loop_begin".toList ∧ Known c "horizontal_loop_end".toList) ∨
     (c.run = false ∧ Known c "horizontal_dimension".toList))) ∨
  (VC.isHoriz d = false ∧ ∃ lo hi, d = lo ++ ':' :: hi ∧ ':' ∉ lo ∧ ':' ∉ hi ∧ Known c lo ∧ Known c hi)

/-- `Sect c s d b n`: of a variable that is not an argument of the group, the part with the columns of this call has `n` elements along a dimension
`d` with bounds `b`, and that part is inside the bounds. -/
inductive Sect (c : Ctx) (s : State) : Str → Int × Int → Int → Prop
  | whole {d : Str} {b : Int × Int} : ':' ∈ d → VC.isHoriz d = false → Sect c s d b (extent b)
  | loop {d : Str} {b : Int × Int} {i j : Int} : ':' ∈ d → VC.isHoriz d = true → c.run = true →
      value c s "horizontal_loop_begin".toList = some i → value c s "horizontal_loop_end".toList = some j → i ≤ j → b.1 ≤ i → j ≤ b.2 →
      Sect c s d b (j - i + 1)
  | all {d : Str} {b : Int × Int} {j : Int} : ':' ∈ d → VC.isHoriz d = true → c.run = false →
      value c s "horizontal_dimension".toList = some j → 1 ≤ j → b.1 ≤ 1 → j ≤ b.2 → Sect c s d b j

/-- The variable is not an argument of the group and has this local name there: from the group itself or else from the first suite that has it. -/
def Own (c : Ctx) (std l : Str) : Prop :=
  Dict.find c.call std = none ∧ (Dict.find c.group std = some l ∨ (Dict.find c.group std = none ∧ look c.suites std = some l))

/-- `Inside c s d b i j`: along dimension `d` with bounds `b`, a variable that is not an argument of the group has its first element of this call at
`i` and its last one at `j`, and both are inside the bounds. -/
inductive Inside (c : Ctx) (s : State) : Str → Int × Int → Int → Int → Prop
  | range {lo hi : Str} {l h : Int} : ':' ∉ lo → ':' ∉ hi → VC.isHoriz (lo ++ ':' :: hi) = false →
      value c s lo = some l → value c s hi = some h → l ≤ h → Inside c s (lo ++ ':' :: hi) (l, h) l h
  | loop {d : Str} {b : Int × Int} {i j : Int} : ':' ∈ d → VC.isHoriz d = true → c.run = true →
      value c s "horizontal_loop_begin".toList = some i → value c s "horizontal_loop_end".toList = some j → i ≤ j → b.1 ≤ i → j ≤ b.2 →
      Inside c s d b i j
  | all {d : Str} {b : Int × Int} {j : Int} : ':' ∈ d → VC.isHoriz d = true → c.run = false →
      value c s "horizontal_dimension".toList = some j → 1 ≤ j → b.1 ≤ 1 → j ≤ b.2 → Inside c s d b 1 j

end Ccpp.DC
