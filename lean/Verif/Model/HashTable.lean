/-!
# Model of `src/ccpp_hash_table.F90`
-/
namespace Ccpp.Hash

/-- Fortran `trim` : remove trailing blanks. Fortran intrinsic, src/ccpp_hash_table.F90:243 -/
def rtrim (s : List Char) : List Char := (s.reverse.dropWhile (· == ' ')).reverse

/-- tbl_gen_hash_key, ccpp_hash_table.F90:14-16 (index 0..15). -/
def factors : List Nat := [61, 59, 53, 47, 43, 41, 37, 31, 29, 23, 17, 13, 11, 7, 3, 1]

/-- The loop of hash_table_key_hash, ccpp_hash_table.F90:182-191, over the characters of
`string(1:len_trim(string))`; default integers are 32 bits wide.  `ind` is `ind_fact`. -/
def hashLoop : BitVec 32 → Nat → List Char → BitVec 32
  | h, _, [] => h
  | h, ind, c :: cs =>
    let ind := ind + 1
    let ind := if ind > 15 then 1 else ind
    hashLoop (h ^^^ BitVec.ofNat 32 (c.toNat * (factors.getD ind 0))) ind cs

/-- ccpp_hash_table_t.  `chain i` is the content of `table(i)` followed by its overflow chain
(the `next` pointers); the statistics fields are kept. src/ccpp_hash_table.F90:22-48 -/
structure Table (V : Type) where
  size : Int
  offset : BitVec 32
  chain : Int → List V
  numKeys : Nat
  collisions : Nat
  maxCollision : Nat

/-- `ishft(1, n)` for a 32-bit integer, `n ≤ 30`; a negative `n` shifts right.
Fortran intrinsic, src/ccpp_hash_table.F90:152 -/
def ishft1 (n : Int) : Int := if n < 0 then 0 else 2 ^ n.toNat

/-- hash_table_initialize_table, ccpp_hash_table.F90:134-156.  `old` is the previous key offset
(kept when `key_off` is absent). -/
def initTable (V : Type) (tblSize : Int) (keyOff : Option (BitVec 32))
    (old : BitVec 32 := 21467) : Table V :=
  { size := ishft1 (min tblSize 30), offset := keyOff.getD old, chain := fun _ => [],
    numKeys := 0, collisions := 0, maxCollision := 0 }

/-- hash_table_key_hash without the error branch, ccpp_hash_table.F90:180-193: the signed value
of `iand(hash, table_size - 1) + 1`. -/
def keyHash {V : Type} (t : Table V) (s : List Char) : Int :=
  ((hashLoop t.offset 0 (rtrim s)) &&& BitVec.ofInt 32 (t.size - 1)).toInt + 1

/-- The error branch of hash_table_key_hash, ccpp_hash_table.F90:194-203. -/
def outOfBounds {V : Type} (t : Table V) (i : Int) : Bool := decide (i < 1 ∨ i > t.size)

/-- Error messages. src/ccpp_hash_table.F90:75-100, 265 -/
inductive Err where
  | outOfBounds | noEntry | duplicate
deriving DecidableEq, Repr

/-- hash_table_table_value, ccpp_hash_table.F90:209-262 (with `errmsg` present).  Character
comparison ignores trailing blanks. -/
def tableValue {V : Type} (key : V → List Char) (t : Table V) (k : List Char) : Except Err V :=
  let i := keyHash t k
  if outOfBounds t i then .error .outOfBounds
  else match (t.chain i).find? (fun v => rtrim (key v) == rtrim k) with
    | some v => .ok v
    | none => .error .noEntry

/-- hash_table_add_hash_key, ccpp_hash_table.F90:266-332.  The new entry goes to the end of
the chain of its bucket. -/
def add {V : Type} (key : V → List Char) (t : Table V) (v : V) : Table V × Option Err :=
  let i := keyHash t (key v)
  if outOfBounds t i then (t, some .outOfBounds)
  else match tableValue key t (key v) with
    | .ok _ => (t, some .duplicate)
    | .error _ =>
      let c := t.chain i
      ({ t with chain := fun j => if j = i then c ++ [v] else t.chain j,
                numKeys := t.numKeys + 1,
                collisions := if c.length = 1 then t.collisions + 1 else t.collisions,
                maxCollision := max t.maxCollision c.length }, none)

/-- hash_table_num_values, ccpp_hash_table.F90:336-350 -/
def numValues {V : Type} (t : Table V) : Nat := t.numKeys

/-! ## Iterator -/

/-- ccpp_hash_iterator_t (ccpp_hash_table.F90:50-62): index, and `table_entry` as the part of the
overflow chain it points to (`none` = null pointer). -/
structure Iter (V : Type) where
  index : Int
  entry : Option (List V)

/-- Result of starting an iterator: an iterator, or a read outside `table(1:table_size)`.
src/ccpp_hash_table.F90:50-62 -/
inductive Start (V : Type) where
  | iter (it : Iter V)
  | outOfBoundsRead (index : Int)

/-- The loop of hash_iterator_initialize, ccpp_hash_table.F90:403-411; `n` is the number of table
elements after `index`.  The bound is only tested after `table(index)` has been read. -/
def startLoop {V : Type} (t : Table V) (index : Int) : Nat → Start V
  | 0 => .outOfBoundsRead (index + 1)
  | n + 1 =>
    if (t.chain (index + 1)).isEmpty then startLoop t (index + 1) n
    else .iter { index := index + 1, entry := none }

/-- hash_iterator_initialize, ccpp_hash_table.F90:390-412 -/
def start {V : Type} (t : Table V) : Start V := startLoop t 0 t.size.toNat

/-- The inner loop of hash_iterator_next_entry, ccpp_hash_table.F90:457-471. -/
def nextBucket {V : Type} (t : Table V) (index : Int) : Nat → Iter V
  | 0 => { index := 0, entry := none }
  | n + 1 =>
    if (t.chain (index + 1)).isEmpty then nextBucket t (index + 1) n
    else { index := index + 1, entry := none }

/-- hash_iterator_next_entry, ccpp_hash_table.F90:435-477 -/
def next {V : Type} (t : Table V) (it : Iter V) : Iter V :=
  if it.index > 0 then
    match it.entry with
    | some e =>
      match e.drop 1 with
      | [] => nextBucket t it.index (t.size - it.index).toNat
      | e' => { it with entry := some e' }
    | none =>
      match (t.chain it.index).drop 1 with
      | [] => nextBucket t it.index (t.size - it.index).toNat
      | e' => { it with entry := some e' }
  else { it with entry := none }

/-- hash_iterator_is_valid, ccpp_hash_table.F90:481-493 -/
def valid {V : Type} (t : Table V) (it : Iter V) : Bool :=
  decide (it.index > 0 ∧ it.index ≤ t.size)

/-- hash_iterator_value, ccpp_hash_table.F90:497-515; `none` is a null pointer. -/
def value {V : Type} (t : Table V) (it : Iter V) : Option V :=
  if valid t it then
    match it.entry with
    | some e => e.head?
    | none => (t.chain it.index).head?
  else none

/-- The client loop used everywhere in the framework (e.g. ccpp_constituent_prop_mod.F90:1375-1395):
`do while (valid) … value … next`.  `fuel` bounds the number of iterations. -/
def collect {V : Type} (t : Table V) : Nat → Iter V → List (Option V) × Iter V
  | 0, it => ([], it)
  | n + 1, it =>
    if valid t it then
      let r := collect t n (next t it)
      (value t it :: r.1, r.2)
    else ([], it)

end Ccpp.Hash
