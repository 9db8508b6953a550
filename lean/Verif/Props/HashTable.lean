import Verif.Model.HashTable
/-! # C10–C13: the hash table -/
namespace Ccpp.Hash

variable {V : Type}

/-! ## C11 -/

/-- Tables produced by `initialize` (any requested size ≥ 0, any offset) and additions. -/
inductive Reachable (key : V → List Char) : Table V → Prop
  | init (n : Int) (off : Option (BitVec 32)) (old : BitVec 32) (h : 0 ≤ n) :
      Reachable key (initTable V n off old)
  | add {t} (v : V) : Reachable key t → Reachable key (add key t v).1

theorem size_reachable {key : V → List Char} {t : Table V} (h : Reachable key t) :
    ∃ k : Nat, k ≤ 30 ∧ t.size = 2 ^ k := by
  induction h with
  | init n off old h =>
    refine ⟨(min n 30).toNat, by omega, ?_⟩
    simp only [initTable, ishft1]
    rw [if_neg (by omega)]
  | add v _ ih =>
    rename_i t _
    have : (add key t v).1.size = t.size := by
      simp only [add]
      split
      · rfl
      · split <;> rfl
    rw [this]; exact ih

theorem mask_bounds (h : BitVec 32) (k : Nat) (hk : k ≤ 30) :
    0 ≤ (h &&& BitVec.ofInt 32 ((2:Int) ^ k - 1)).toInt ∧
    (h &&& BitVec.ofInt 32 ((2:Int) ^ k - 1)).toInt ≤ 2 ^ k - 1 := by
  have hpos : 1 ≤ 2 ^ k := Nat.one_le_two_pow
  have hle : 2 ^ k ≤ 2 ^ 30 := Nat.pow_le_pow_right (by decide) hk
  have hm : ((2:Int) ^ k - 1) = ((2 ^ k - 1 : Nat) : Int) := by
    push_cast [hpos]
    rfl
  rw [hm, BitVec.ofInt_natCast]
  have hle2 : (h &&& BitVec.ofNat 32 (2 ^ k - 1)).toNat ≤ 2 ^ k - 1 := by
    rw [BitVec.toNat_and, BitVec.toNat_ofNat, Nat.mod_eq_of_lt (by omega)]
    exact Nat.and_le_right
  rw [BitVec.toInt_eq_toNat_of_lt (by omega)]
  constructor
  · omega
  · omega

/-- **C11**.  In every table the public operations can build (any requested size from 0 up, any
key offset), the hash index of every string lies within the table, so the error branch
of key_hash is never taken. -/
theorem C11_hash_in_bounds {key : V → List Char} {t : Table V} (h : Reachable key t)
    (s : List Char) : 1 ≤ keyHash t s ∧ keyHash t s ≤ t.size := by
  obtain ⟨k, hk, hs⟩ := size_reachable h
  have := mask_bounds (hashLoop t.offset 0 (rtrim s)) k hk
  unfold keyHash
  rw [hs]
  omega

example : Reachable (V := List Char) id (add id (initTable _ 3 none) "abc".toList).1 :=
  .add _ (.init 3 none _ (by decide))

/-- **C11**: key_hash ignores trailing blanks (so a padded key finds its entry). -/
theorem C11_hash_trim (t : Table V) (s : List Char) (n : Nat) :
    keyHash t (s ++ List.replicate n ' ') = keyHash t s := by
  have : rtrim (s ++ List.replicate n ' ') = rtrim s := by
    unfold rtrim
    simp only [List.reverse_append, List.reverse_replicate]
    congr 1
    induction n with
    | zero => simp
    | succ n ih => simp [List.replicate_succ, ih]
  simp [keyHash, this]

/-! ## C10 -/

/-- Keys are compared without trailing blanks. -/
def SameKey (a b : List Char) : Prop := rtrim a = rtrim b

instance (a b : List Char) : Decidable (SameKey a b) := by unfold SameKey; infer_instance

/-- Specification: the values successfully added so far, in order; a value is refused when one
with the same key is present. -/
def specAdd (key : V → List Char) (m : List V) (v : V) : List V :=
  if m.any (fun w => decide (SameKey (key w) (key v))) then m else m ++ [v]

/-- Specification of lookup: the value stored under the key. -/
def specLookup (key : V → List Char) (m : List V) (k : List Char) : Option V :=
  m.find? (fun w => decide (SameKey (key w) k))

/-- The table reached from an initialised one by a sequence of additions. -/
def addAll (key : V → List Char) (t : Table V) (vs : List V) : Table V :=
  vs.foldl (fun t v => (add key t v).1) t

/-- Refinement relation between a table and the list of values. -/
structure Refines (key : V → List Char) (t : Table V) (m : List V) : Prop where
  reach : Reachable key t
  chain : ∀ i, t.chain i = m.filter (fun v => decide (keyHash t (key v) = i))
  num : t.numKeys = m.length

theorem sameKey_hash (t : Table V) {a b : List Char} (h : SameKey a b) :
    keyHash t a = keyHash t b := by
  unfold keyHash; rw [h]

theorem lookup_refines {key : V → List Char} {t : Table V} {m : List V} (h : Refines key t m)
    (k : List Char) :
    tableValue key t k = (match specLookup key m k with
      | some v => .ok v | none => .error .noEntry) := by
  unfold tableValue
  have hb := C11_hash_in_bounds h.reach k
  have : outOfBounds t (keyHash t k) = false := by
    unfold outOfBounds; simp only [decide_eq_false_iff_not]; omega
  simp only [this, Bool.false_eq_true, if_false]
  have : (t.chain (keyHash t k)).find? (fun v => rtrim (key v) == rtrim k) =
      specLookup key m k := by
    rw [h.chain, List.find?_filter]
    unfold specLookup
    congr 1
    funext v
    by_cases hk : SameKey (key v) k
    · have h1 := sameKey_hash t hk
      have h2 : rtrim (key v) = rtrim k := hk
      simp [hk, h1, h2]
    · have h2 : ¬ rtrim (key v) = rtrim k := hk
      simp [hk, h2]
  rw [this]
  cases specLookup key m k <;> rfl

theorem hash_eq_of_offset_size {t t' : Table V} (h1 : t'.size = t.size)
    (h2 : t'.offset = t.offset) (s : List Char) : keyHash t' s = keyHash t s := by
  unfold keyHash; rw [h1, h2]

theorem any_iff_lookup (key : V → List Char) (m : List V) (k : List Char) :
    m.any (fun w => decide (SameKey (key w) k)) = (specLookup key m k).isSome := by
  unfold specLookup
  rw [Bool.eq_iff_iff, List.find?_isSome, List.any_eq_true]

theorem add_refines {key : V → List Char} {t : Table V} {m : List V} (h : Refines key t m)
    (v : V) :
    Refines key (add key t v).1 (specAdd key m v) ∧
    (add key t v).2 = (if m.any (fun w => decide (SameKey (key w) (key v))) then some .duplicate
      else none) ∧
    (m.any (fun w => decide (SameKey (key w) (key v))) = true → (add key t v).1 = t) := by
  have hb := C11_hash_in_bounds h.reach (key v)
  have hob : outOfBounds t (keyHash t (key v)) = false := by
    unfold outOfBounds; simp only [decide_eq_false_iff_not]; omega
  have hl := lookup_refines h (key v)
  have hr := Reachable.add v h.reach
  unfold specAdd
  rw [any_iff_lookup]
  cases hs : specLookup key m (key v) with
  | some w =>
    rw [hs] at hl
    simp only at hl
    have ha : add key t v = (t, some .duplicate) := by
      unfold add; simp [hob, hl]
    simp [ha, h]
  | none =>
    rw [hs] at hl
    simp only at hl
    simp only [Option.isSome_none, Bool.false_eq_true, if_false, false_implies, and_true]
    unfold add at hr ⊢
    simp only [hob, Bool.false_eq_true, if_false, hl] at hr ⊢
    refine ⟨⟨hr, ?_, ?_⟩, trivial⟩
    · intro i
      have hh : ∀ s, keyHash { t with
          chain := fun j => if j = keyHash t (key v) then t.chain (keyHash t (key v)) ++ [v]
            else t.chain j,
          numKeys := t.numKeys + 1,
          collisions := if (t.chain (keyHash t (key v))).length = 1 then t.collisions + 1
            else t.collisions,
          maxCollision := max t.maxCollision (t.chain (keyHash t (key v))).length } s =
          keyHash t s := fun s => hash_eq_of_offset_size rfl rfl s
      simp only [hh]
      rw [List.filter_append]
      by_cases hi : i = keyHash t (key v)
      · subst hi
        simp [h.chain]
      · have : ¬ keyHash t (key v) = i := fun e => hi e.symm
        simp [hi, this, h.chain]
    · simp [h.num]

theorem addAll_refines {key : V → List Char} (vs : List V) {t : Table V} {m : List V}
    (h : Refines key t m) : Refines key (addAll key t vs) (vs.foldl (specAdd key) m) := by
  induction vs generalizing t m with
  | nil => exact h
  | cons v vs ih => exact ih (add_refines h v).1

theorem init_refines (key : V → List Char) (n : Int) (off : Option (BitVec 32))
    (old : BitVec 32) (h : 0 ≤ n) : Refines key (initTable V n off old) [] :=
  ⟨.init n off old h, by intro i; simp [initTable], rfl⟩

theorem spec_lookup (key : V → List Char) (k : List Char) : ∀ (vs m : List V), specLookup key (vs.foldl (specAdd key) m) k =
    (match specLookup key m k with
      | some v => some v
      | none => vs.find? (fun w => decide (SameKey (key w) k))) := by
  intro vs
  induction vs with
  | nil => intro m; simp; cases specLookup key m k <;> rfl
  | cons v vs ih =>
    intro m
    rw [List.foldl_cons, ih]
    unfold specAdd
    by_cases hp : (m.any fun w => decide (SameKey (key w) (key v))) = true
    · simp only [hp, if_true]
      cases hs : specLookup key m k with
      | some w => rfl
      | none =>
        simp only
        have : ¬ SameKey (key v) k := by
          intro hvk
          rw [List.any_eq_true] at hp
          obtain ⟨w, hw, hwv⟩ := hp
          unfold specLookup at hs
          rw [List.find?_eq_none] at hs
          have := hs w hw
          simp only [decide_eq_true_eq] at this hwv
          exact this (hwv.trans hvk)
        rw [List.find?_cons_of_neg (by simpa using this)]
    · simp only [hp, Bool.false_eq_true, if_false]
      have : specLookup key (m ++ [v]) k =
          (specLookup key m k).or (if SameKey (key v) k then some v else none) := by
        unfold specLookup
        rw [List.find?_append]
        by_cases h : SameKey (key v) k <;> simp [h]
      rw [this]
      cases hs : specLookup key m k with
      | some w => rfl
      | none =>
        by_cases h : SameKey (key v) k
        · simp [h]
        · simp [h]

theorem spec_list (key : V → List Char) : ∀ (vs m pre : List V), m.Sublist pre →
    m.Pairwise (fun a b => ¬ SameKey (key a) (key b)) →
    (∀ v ∈ pre, ∃ w ∈ m, SameKey (key w) (key v)) →
    (vs.foldl (specAdd key) m).Sublist (pre ++ vs) ∧
    (vs.foldl (specAdd key) m).Pairwise (fun a b => ¬ SameKey (key a) (key b)) ∧
    ∀ v ∈ pre ++ vs, ∃ w ∈ vs.foldl (specAdd key) m, SameKey (key w) (key v) := by
  intro vs
  induction vs with
  | nil => intro m pre h1 h2 h3; simpa using ⟨h1, h2, h3⟩
  | cons v vs ih =>
    intro m pre h1 h2 h3
    rw [List.foldl_cons]
    have e : pre ++ v :: vs = (pre ++ [v]) ++ vs := by simp
    rw [e]
    apply ih
    · unfold specAdd
      split
      · exact h1.trans (List.sublist_append_left _ _)
      · exact h1.append (List.Sublist.refl _)
    · unfold specAdd
      split
      · exact h2
      · next hn =>
        rw [List.pairwise_append]
        refine ⟨h2, by simp, ?_⟩
        intro a ha b hb
        simp only [List.mem_singleton] at hb
        subst hb
        intro hs
        apply hn
        rw [List.any_eq_true]
        exact ⟨a, ha, by simpa using hs⟩
    · intro x hx
      unfold specAdd
      rcases List.mem_append.1 hx with hx | hx
      · obtain ⟨w, hw, hs⟩ := h3 x hx
        refine ⟨w, ?_, hs⟩
        split
        · exact hw
        · exact List.mem_append_left _ hw
      · simp only [List.mem_singleton] at hx
        subst hx
        split
        · next hp =>
          rw [List.any_eq_true] at hp
          obtain ⟨w, hw, hs⟩ := hp
          exact ⟨w, hw, by simpa using hs⟩
        · exact ⟨x, by simp, rfl⟩

/-- **C10**.  After any sequence of additions to an initialised table (any size ≥ 0, any offset,
any collisions), looking up a key returns the first value added with that key (trailing blanks
ignored), and "No entry" exactly when none was added; the number of values is the number
of distinct keys added. -/
theorem C10_finite_map (key : V → List Char) (n : Int) (off : Option (BitVec 32))
    (old : BitVec 32) (hn : 0 ≤ n) (vs : List V) (k : List Char) :
    let t := addAll key (initTable V n off old) vs
    tableValue key t k = (match vs.find? (fun w => decide (SameKey (key w) k)) with
      | some v => .ok v | none => .error .noEntry) ∧
    ∃ m : List V, m.Sublist vs ∧ numValues t = m.length ∧
      m.Pairwise (fun a b => ¬ SameKey (key a) (key b)) ∧
      ∀ v ∈ vs, ∃ w ∈ m, SameKey (key w) (key v) := by
  intro t
  have hr := addAll_refines vs (init_refines key n off old hn)
  have hl := lookup_refines hr k
  constructor
  · rw [hl, spec_lookup]
    simp [specLookup]
  · obtain ⟨a, b, c⟩ := spec_list key vs [] [] (by simp) (by simp) (by simp)
    exact ⟨_, by simpa using a, hr.num, b, by simpa using c⟩

example : (0 : Int) ≤ 5 ∧ SameKey "qv  ".toList "qv".toList := by decide

/-- **C10**.  Adding a value reports "already in table" exactly when a value with the same key was
added before, and then changes nothing; otherwise it reports no error. -/
theorem C10_duplicate_rejected (key : V → List Char) (n : Int) (off : Option (BitVec 32))
    (old : BitVec 32) (hn : 0 ≤ n) (vs : List V) (v : V) :
    let t := addAll key (initTable V n off old) vs
    ((∃ w ∈ vs, SameKey (key w) (key v)) → add key t v = (t, some .duplicate)) ∧
    ((¬ ∃ w ∈ vs, SameKey (key w) (key v)) → (add key t v).2 = none) := by
  intro t
  have hr := addAll_refines vs (init_refines key n off old hn)
  obtain ⟨_, h2, h3⟩ := add_refines hr v
  have hl := (C10_finite_map key n off old hn vs (key v)).1
  have hl2 := lookup_refines hr (key v)
  have hany : ((vs.foldl (specAdd key) []).any fun w => decide (SameKey (key w) (key v))) =
      (vs.find? (fun w => decide (SameKey (key w) (key v)))).isSome := by
    rw [any_iff_lookup]
    have hl' := hl.symm.trans hl2
    revert hl'
    cases vs.find? (fun w => decide (SameKey (key w) (key v))) <;>
      cases specLookup key (vs.foldl (specAdd key) []) (key v) <;> simp
  rw [hany] at h2 h3
  constructor
  · rintro ⟨w, hw, hs⟩
    have hx : (vs.find? (fun w => decide (SameKey (key w) (key v)))).isSome = true := by
      rw [List.find?_isSome]; exact ⟨w, hw, by simpa using hs⟩
    rw [hx] at h2 h3
    exact Prod.ext (h3 rfl) h2
  · intro hne
    have hx : (vs.find? (fun w => decide (SameKey (key w) (key v)))).isSome = false := by
      rw [← Bool.not_eq_true, List.find?_isSome]
      rintro ⟨w, hw, hs⟩
      exact hne ⟨w, hw, by simpa using hs⟩
    rw [hx] at h2
    exact h2

/-! ## C12 -/

/-- All entries stored in buckets `i+1 … i+n`. -/
def flatFrom (t : Table V) (i : Int) : Nat → List V
  | 0 => []
  | n + 1 => t.chain (i + 1) ++ flatFrom t (i + 1) n

/-- What is left to visit. -/
def rest (t : Table V) (it : Iter V) : List V :=
  if valid t it then
    (match it.entry with | some e => e | none => t.chain it.index) ++
      flatFrom t it.index (t.size - it.index).toNat
  else []

/-- Iterators that arise: the current position is an entry. -/
structure Good (t : Table V) (it : Iter V) : Prop where
  nonneg : 0 ≤ it.index
  le : it.index ≤ t.size
  cur : valid t it = true →
    (match it.entry with | some e => e | none => t.chain it.index) ≠ []

theorem nextBucket_spec (t : Table V) (n : Nat) (i : Int) (h0 : 0 ≤ i) (hn : i + n = t.size) :
    Good t (nextBucket t i n) ∧ rest t (nextBucket t i n) = flatFrom t i n := by
  induction n generalizing i with
  | zero =>
    have hv : valid t ({ index := 0, entry := none } : Iter V) = false := by simp [valid]
    refine ⟨⟨by simp [nextBucket], by simp [nextBucket]; omega, ?_⟩, ?_⟩
    · intro h; simp only [nextBucket] at h; rw [hv] at h; simp at h
    · simp [nextBucket, rest, hv, flatFrom]
  | succ n ih =>
    simp only [nextBucket]
    by_cases he : (t.chain (i + 1)).isEmpty = true
    · simp only [he, if_true]
      obtain ⟨h1, h2⟩ := ih (i + 1) (by omega) (by omega)
      refine ⟨h1, ?_⟩
      rw [h2]
      simp only [flatFrom]
      rw [List.isEmpty_iff.1 he]
      simp
    · simp only [he, Bool.false_eq_true, if_false]
      have hv : valid t ({ index := i + 1, entry := none } : Iter V) = true := by
        simp [valid]; omega
      refine ⟨⟨by simp; omega, by simp; omega, ?_⟩, ?_⟩
      · intro _
        simp only
        intro hc
        exact he (by rw [hc]; rfl)
      · simp only [rest, hv, if_true, flatFrom]
        congr 2
        omega

theorem next_spec (t : Table V) (it : Iter V) (hg : Good t it) (hv : valid t it = true) :
    Good t (next t it) ∧ (∃ v, value t it = some v ∧ rest t it = v :: rest t (next t it)) := by
  have hidx : it.index > 0 ∧ it.index ≤ t.size := by simpa [valid] using hv
  have hcur := hg.cur hv
  have hbk := nextBucket_spec t (t.size - it.index).toNat it.index (by omega) (by omega)
  have hvalid' : ∀ e, valid t { it with entry := e } = true := by
    intro e; simpa [valid] using hidx
  cases hent : it.entry with
  | some e =>
    rw [hent] at hcur
    simp only at hcur
    cases e with
    | nil => exact absurd rfl hcur
    | cons v e =>
      simp only [next, hidx.1, gt_iff_lt, if_true, hent, List.drop_succ_cons, List.drop_zero]
      have hval : value t it = some v := by simp [value, hv, hent]
      cases e with
      | nil =>
        refine ⟨hbk.1, v, hval, ?_⟩
        simp only
        rw [hbk.2]
        simp [rest, hv, hent]
      | cons w e =>
        refine ⟨⟨hg.nonneg, hg.le, ?_⟩, v, hval, ?_⟩
        · intro _; simp
        · simp [rest, hv, hent, hvalid']
  | none =>
    rw [hent] at hcur
    simp only at hcur
    cases hch : t.chain it.index with
    | nil => rw [hch] at hcur; exact absurd rfl hcur
    | cons v e =>
      simp only [next, hidx.1, gt_iff_lt, if_true, hent, hch, List.drop_succ_cons,
        List.drop_zero]
      have hval : value t it = some v := by simp [value, hv, hent, hch]
      cases e with
      | nil =>
        refine ⟨hbk.1, v, hval, ?_⟩
        simp only
        rw [hbk.2]
        simp [rest, hv, hent, hch]
      | cons w e =>
        refine ⟨⟨hg.nonneg, hg.le, ?_⟩, v, hval, ?_⟩
        · intro _; simp
        · simp [rest, hv, hent, hvalid', hch]

theorem rest_nil_invalid (t : Table V) (it : Iter V) (hg : Good t it) (h : rest t it = []) :
    valid t it = false := by
  cases hv : valid t it with
  | false => rfl
  | true =>
    have := hg.cur hv
    unfold rest at h
    rw [hv] at h
    simp only [if_true, List.append_eq_nil_iff] at h
    exact absurd h.1 this

theorem collect_spec (t : Table V) (n : Nat) (it : Iter V) (hg : Good t it)
    (hn : (rest t it).length ≤ n) :
    (collect t n it).1 = (rest t it).map some ∧ valid t (collect t n it).2 = false := by
  induction n generalizing it with
  | zero =>
    have h0 : rest t it = [] := List.eq_nil_of_length_eq_zero (by omega)
    simp [collect, h0, rest_nil_invalid t it hg h0]
  | succ n ih =>
    cases hv : valid t it with
    | false => simp [collect, hv, rest]
    | true =>
      obtain ⟨hg', v, hval, hr⟩ := next_spec t it hg hv
      have hl : (rest t (next t it)).length ≤ n := by
        rw [hr] at hn
        simp only [List.length_cons] at hn
        omega
      obtain ⟨h1, h2⟩ := ih (next t it) hg' hl
      refine ⟨?_, ?_⟩
      · simp only [collect, hv, if_true, hval, h1]
        rw [hr, List.map_cons]
      · simp only [collect, hv, if_true]
        exact h2

theorem startLoop_spec (t : Table V) (n : Nat) (i : Int) (h0 : 0 ≤ i) (hn : i + n = t.size) :
    (flatFrom t i n = [] ∧ startLoop t i n = .outOfBoundsRead (t.size + 1)) ∨
    (flatFrom t i n ≠ [] ∧ ∃ it, startLoop t i n = .iter it ∧ Good t it ∧
      rest t it = flatFrom t i n) := by
  induction n generalizing i with
  | zero =>
    left
    refine ⟨rfl, ?_⟩
    simp only [startLoop]
    congr 1
    omega
  | succ n ih =>
    simp only [startLoop, flatFrom]
    by_cases he : (t.chain (i + 1)).isEmpty = true
    · simp only [he, if_true]
      rw [List.isEmpty_iff.1 he, List.nil_append]
      exact ih (i + 1) (by omega) (by omega)
    · simp only [he, Bool.false_eq_true, if_false]
      right
      have hne : t.chain (i + 1) ≠ [] := by
        intro hc
        exact he (by rw [hc]; rfl)
      have hv : valid t ({ index := i + 1, entry := none } : Iter V) = true := by
        simp [valid]; omega
      refine ⟨by simp [hne], _, rfl, ⟨by simp; omega, by simp; omega, fun _ => hne⟩, ?_⟩
      simp only [rest, hv, if_true]
      congr 2
      omega

theorem flatFrom_perm (t : Table V) (key : V → List Char) (m : List V) (n : Nat) (i : Int)
    (hc : ∀ i, t.chain i = m.filter (fun v => decide (keyHash t (key v) = i))) :
    (flatFrom t i n).Perm
      (m.filter (fun v => decide (i < keyHash t (key v) ∧ keyHash t (key v) ≤ i + n))) := by
  induction n generalizing i with
  | zero =>
    have : (m.filter (fun v => decide (i < keyHash t (key v) ∧
        keyHash t (key v) ≤ i + ((0 : Nat) : Int)))) = [] := by
      rw [List.filter_eq_nil_iff]
      intro v _
      simp only [decide_eq_true_eq]
      omega
    rw [this]
    exact List.Perm.refl _
  | succ n ih =>
    simp only [flatFrom, hc (i + 1)]
    refine ((List.Perm.refl _).append (ih (i + 1))).trans ?_
    have hp := List.filter_append_perm (fun v => decide (keyHash t (key v) = i + 1))
      (m.filter (fun v => decide (i < keyHash t (key v) ∧
        keyHash t (key v) ≤ i + ((n + 1 : Nat) : Int))))
    refine List.Perm.trans ?_ hp
    rw [List.filter_filter, List.filter_filter]
    refine List.Perm.of_eq ?_
    congr 1
    · apply List.filter_congr
      intro v _
      rw [Bool.eq_iff_iff]
      simp only [decide_eq_true_eq, Bool.and_eq_true]
      omega
    · apply List.filter_congr
      intro v _
      rw [Bool.eq_iff_iff]
      simp only [decide_eq_true_eq, Bool.and_eq_true, Bool.not_eq_true', decide_eq_false_iff_not]
      omega

/-- **C12**.  In a table to which at least one value was added (any additions, any collisions),
starting an iterator succeeds without reading outside the table, and stepping it while valid
stops after `num_values` steps having visited exactly the stored values (those a lookup can
return), each once (no two visited values share a key). -/
theorem C12_iterate_all (key : V → List Char) (n : Int) (off : Option (BitVec 32))
    (old : BitVec 32) (hn : 0 ≤ n) (vs : List V) (hne : vs ≠ []) :
    let t := addAll key (initTable V n off old) vs
    ∃ it, start t = .iter it ∧ ∃ visited : List V,
      (collect t (numValues t) it).1 = visited.map some ∧
      valid t (collect t (numValues t) it).2 = false ∧
      visited.length = numValues t ∧
      (∀ v, v ∈ visited ↔ ∃ k, tableValue key t k = .ok v) ∧
      visited.Pairwise (fun a b => ¬ SameKey (key a) (key b)) := by
  intro t
  have hr : Refines key t (vs.foldl (specAdd key) []) :=
    addAll_refines vs (init_refines key n off old hn)
  obtain ⟨_, hpw, hcov⟩ := spec_list key vs [] [] (by simp) (by simp) (by simp)
  generalize hm : vs.foldl (specAdd key) [] = m at hr hpw hcov
  obtain ⟨k, _, hk⟩ := size_reachable hr.reach
  have hpos : (0 : Int) < t.size := by rw [hk]; exact Int.pow_pos (by decide)
  have hflat := flatFrom_perm t key m t.size.toNat 0 hr.chain
  rw [List.filter_eq_self.2] at hflat
  rotate_left
  · intro v _
    have := C11_hash_in_bounds hr.reach (key v)
    simp only [decide_eq_true_eq]
    omega
  have hmne : m ≠ [] := by
    cases vs with
    | nil => exact absurd rfl hne
    | cons v vs =>
      obtain ⟨w, hw, _⟩ := hcov v (by simp)
      intro h0; rw [h0] at hw; simp at hw
  rcases startLoop_spec t t.size.toNat 0 (by omega) (by omega) with ⟨h0, _⟩ | ⟨_, it, hit, hg, hrest⟩
  · rw [h0] at hflat
    exact absurd (List.Perm.nil_eq hflat).symm hmne
  · refine ⟨it, hit, rest t it, ?_⟩
    have hperm : (rest t it).Perm m := by rw [hrest]; exact hflat
    have hlen : (rest t it).length = numValues t := by rw [hperm.length_eq]; exact hr.num.symm
    obtain ⟨h1, h2⟩ := collect_spec t (numValues t) it hg (by omega)
    refine ⟨h1, h2, hlen, ?_, ?_⟩
    · intro v
      rw [hperm.mem_iff]
      constructor
      · intro hv
        refine ⟨key v, ?_⟩
        rw [lookup_refines hr]
        have : specLookup key m (key v) = some v := by
          clear hflat hrest hperm hlen h1 h2 hm hcov hmne hr
          induction m with
          | nil => simp at hv
          | cons w m ih =>
            unfold specLookup
            rw [List.pairwise_cons] at hpw
            rcases List.mem_cons.1 hv with rfl | hv'
            · rw [List.find?_cons_of_pos (by simp [SameKey])]
            · rw [List.find?_cons_of_neg (by simpa using hpw.1 v hv')]
              exact ih hpw.2 hv'
        rw [this]
      · rintro ⟨k, hk⟩
        rw [lookup_refines hr] at hk
        cases hs : specLookup key m k with
        | none => rw [hs] at hk; simp at hk
        | some w =>
          rw [hs] at hk
          simp only [Except.ok.injEq] at hk
          subst hk
          exact List.mem_of_find?_eq_some hs
    · exact (hperm.pairwise_iff (fun {a b} h hs => h hs.symm)).2 hpw

example : ∃ it, start (addAll id (initTable (List Char) 0 none) ["a".toList, "b".toList]) =
    .iter it := by
  obtain ⟨it, h, _⟩ := C12_iterate_all id 0 none 21467 (by decide) ["a".toList, "b".toList]
    (by decide)
  exact ⟨it, h⟩

/-- **C13** (partial: tables that hold a value).  After any nonempty sequence of additions an
iterator starts inside the table on a stored value; for empty tables see `C13_violated`. -/
theorem C13_start_partial (key : V → List Char) (n : Int) (off : Option (BitVec 32))
    (old : BitVec 32) (hn : 0 ≤ n) (vs : List V) (hne : vs ≠ []) :
    let t := addAll key (initTable V n off old) vs
    ∃ it v, start t = .iter it ∧ valid t it = true ∧ value t it = some v := by
  intro t
  obtain ⟨it, h1, visited, h2, _, h4, h5, _⟩ := C12_iterate_all key n off old hn vs hne
  have hr : Refines key t (vs.foldl (specAdd key) []) :=
    addAll_refines vs (init_refines key n off old hn)
  have hpos : 0 < numValues t := by
    cases vs with
    | nil => exact absurd rfl hne
    | cons v vs =>
      obtain ⟨_, _, hcov⟩ := spec_list key (v :: vs) [] [] (by simp) (by simp) (by simp)
      obtain ⟨w, hw, _⟩ := hcov v (by simp)
      have := hr.num
      show 0 < t.numKeys
      rw [this]
      exact List.length_pos_of_mem hw
  cases hv : valid t it with
  | false =>
    have : (collect t (numValues t) it).1 = [] := by
      cases hnv : numValues t with
      | zero => rfl
      | succ m => simp [collect, hv]
    rw [this] at h2
    have : visited = [] := by simpa using h2.symm
    rw [this] at h4
    simp only [List.length_nil] at h4
    exact absurd h4 (by show ¬ 0 = numValues t; omega)
  | true =>
    cases visited with
    | nil =>
      exfalso
      simp only [List.length_nil] at h4
      have : 0 = numValues t := h4
      omega
    | cons v vis =>
      refine ⟨it, v, h1, hv, ?_⟩
      obtain ⟨m, hm⟩ : ∃ m, numValues t = m + 1 := ⟨numValues t - 1, by omega⟩
      have h2' : (collect t (m + 1) it).1 = (v :: vis).map some := by rw [← hm]; exact h2
      simp only [collect, hv, if_true, List.map_cons, List.cons.injEq] at h2'
      exact h2'.1

/-- **C13 is violated**, for every empty initialised table: starting an iterator reads the
element after the last one of the table instead of returning an invalid iterator. -/
theorem C13_violated (key : V → List Char) (n : Int) (off : Option (BitVec 32)) (old : BitVec 32)
    (hn : 0 ≤ n) :
    start (initTable V n off old) = .outOfBoundsRead ((initTable V n off old).size + 1) := by
  obtain ⟨k, _, hk⟩ := size_reachable (Reachable.init (key := key) n off old hn)
  have hpos : (0 : Int) < (initTable V n off old).size := by
    rw [hk]; exact Int.pow_pos (by decide)
  rcases startLoop_spec (initTable V n off old) (initTable V n off old).size.toNat 0 (by omega)
      (by omega) with ⟨_, h⟩ | ⟨h, _⟩
  · exact h
  · have : ∀ (m : Nat) (i : Int), flatFrom (initTable V n off old) i m = [] := by
      intro m
      induction m with
      | zero => intro i; rfl
      | succ m ih => intro i; simp only [flatFrom, ih]; rfl
    exact absurd (this _ _) h

end Ccpp.Hash
