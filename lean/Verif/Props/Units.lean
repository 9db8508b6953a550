import Verif.Spec.Units
import Verif.Props.VarCompat
import Mathlib.Tactic.Ring
import Mathlib.Tactic.Linarith
import Mathlib.Tactic.FieldSimp
/-!
# C32: unit conversions
-/
namespace Ccpp.Units

/-- What the table must satisfy, as a decidable check: every entry is named after two known units
of the same dimension, its formula makes sense, and it preserves the physical value. -/
def entryOk (p : Str × Str) : Bool :=
  units.any fun u => units.any fun v =>
    p.1 == convName (mangle u.1) (mangle v.1) && u.2.dim == v.2.dim &&
    match formula p.2 with
    | none => false
    | some (a, b) => v.2.scale * a == u.2.scale && v.2.scale * b + v.2.offset == u.2.offset

theorem table_ok : table.all entryOk = true := by decide +kernel

/-- Positions of a name at which `__to__` occurs. -/
def splits (n : Str) : List Nat := (List.range n.length).filter fun i => "__to__".toList.isPrefixOf (n.drop i)

theorem table_splits : (table.all fun p => (splits p.1).length == 1) = true := by decide +kernel

theorem mem_splits (a b : Str) : a.length ∈ splits (convName a b) := by
  unfold splits convName
  simp only [List.mem_filter, List.mem_range, List.append_assoc]
  refine ⟨?_, ?_⟩
  · rw [List.length_append, List.length_append]
    have : "__to__".toList.length = 6 := by decide
    omega
  · rw [List.drop_left]
    exact List.isPrefixOf_iff_prefix.2 ⟨b, rfl⟩

theorem convName_inj {a b c d : Str} {f : Str} (hm : (convName a b, f) ∈ table)
    (h : convName a b = convName c d) : a = c ∧ b = d := by
  have h1 := List.all_eq_true.1 table_splits _ hm
  simp only [beq_iff_eq] at h1
  obtain ⟨x, hx⟩ := List.length_eq_one_iff.1 h1
  have ha := mem_splits a b
  have hc := mem_splits c d
  rw [← h, hx] at hc
  rw [hx] at ha
  simp only [List.mem_singleton] at ha hc
  have hl : a.length = c.length := by rw [ha, hc]
  unfold convName at h
  rw [List.append_assoc, List.append_assoc] at h
  obtain ⟨h1, h2⟩ := List.append_inj h hl
  exact ⟨h1, (List.append_inj h2 rfl).2⟩

theorem lookup_mem {n f : Str} (h : lookup n = some f) : (n, f) ∈ table := by
  unfold lookup at h
  simp only [Option.map_eq_some_iff] at h
  obtain ⟨p, hp, rfl⟩ := h
  have h1 := List.mem_of_find?_eq_some hp
  have h2 := List.find?_some hp
  simp only [beq_iff_eq] at h2
  rw [← h2]; exact h1

theorem lookup_ok {a b f : Str} (h : lookup (convName a b) = some f) :
    ∃ u ∈ units, ∃ v ∈ units, a = mangle u.1 ∧ b = mangle v.1 ∧ u.2.dim = v.2.dim ∧
      ∃ p q, formula f = some (p, q) ∧ v.2.scale * p = u.2.scale ∧ v.2.scale * q + v.2.offset = u.2.offset := by
  have hm := lookup_mem h
  have hok := List.all_eq_true.1 table_ok _ hm
  unfold entryOk at hok
  obtain ⟨u, hu, hok⟩ := List.any_eq_true.1 hok
  obtain ⟨v, hv, hok⟩ := List.any_eq_true.1 hok
  simp only [Bool.and_eq_true, beq_iff_eq] at hok
  obtain ⟨⟨hn, hd⟩, hf⟩ := hok
  obtain ⟨ha, hb⟩ := convName_inj hm hn
  refine ⟨u, hu, v, hv, ha, hb, hd, ?_⟩
  cases hfo : formula f with
  | none => rw [hfo] at hf; cases hf
  | some pq =>
    rw [hfo] at hf
    simp only [Bool.and_eq_true, beq_iff_eq] at hf
    exact ⟨pq.1, pq.2, rfl, hf.1, hf.2⟩

/-- Different known units have different names for Python. -/
theorem mangle_inj {u v : Str × Meaning} (hu : u ∈ units) (hv : v ∈ units)
    (h : mangle u.1 = mangle v.1) : u = v := by
  have hall : (units.all fun u => units.all fun v => mangle u.1 != mangle v.1 ||
    (u.1 == v.1 && u.2 == v.2)) = true := by decide +kernel
  have := List.all_eq_true.1 (List.all_eq_true.1 hall u hu) v hv
  rw [h] at this
  simp only [bne_self_eq_false, Bool.false_or, Bool.and_eq_true, beq_iff_eq] at this
  exact Prod.ext this.1 this.2

theorem scale_ne {u : Str × Meaning} (hu : u ∈ units) : u.2.scale ≠ 0 := by
  have hall : (units.all fun u => u.2.scale != 0) = true := by decide +kernel
  simpa using List.all_eq_true.1 hall u hu

theorem convStrs_ok {u1 u2 f r : Str} (h : convStrs u1 u2 = .ok (f, r)) :
    lookup (convName (mangle u1) (mangle u2)) = some f ∧
    lookup (convName (mangle u2) (mangle u1)) = some r := by
  have hs : ∀ u s, unitsToString u = .ok s → s = mangle u := by
    intro u s hs
    unfold unitsToString at hs
    simp only at hs
    split at hs
    · cases hs
    split at hs
    · cases hs
    · injection hs with hs; exact hs.symm
  unfold convStrs at h
  split at h
  · cases h
  next a ha =>
  split at h
  · cases h
  next b hb =>
  split at h
  · cases h
  next f' hf =>
  split at h
  · cases h
  next r' hr =>
  injection h with h
  injection h with h1 h2
  subst h1 h2
  rw [hs _ _ ha, hs _ _ hb] at hf hr
  exact ⟨hf, hr⟩

theorem replaceChar_all (p : Char → Bool) (c : Char) (t s : Str) (ht : t.all p = true) (hc : p c = false) :
    (replaceChar c t s).all p = s.all fun d => d == c || p d := by
  unfold replaceChar
  rw [List.all_flatMap]
  congr 1
  funext d
  by_cases h : d = c
  · simp [h, ht]
  · simp [h]

/-- Texts that units_to_string accepts: "1", or letters, digits, underscores, blanks, `+` and `-`, not
starting with a digit, and no Python keyword. -/
def UnitText (u : Str) : Prop :=
  u = "1".toList ∨
  (u ≠ [] ∧ (∀ c ∈ u, c.isAlphanum = true ∨ c ∈ ['_', ' ', '+', '-']) ∧
    (∀ c, u.head? = some c → c.isDigit = false) ∧ u ∉ keywords)

theorem replaceChar_plain {c : Char} {t s : Str} (ht : '_' ∈ t) (h : '_' ∉ replaceChar c t s) :
    replaceChar c t s = s := by
  unfold replaceChar at h ⊢
  induction s with
  | nil => rfl
  | cons d s ih =>
    rw [List.flatMap_cons] at h ⊢
    rw [List.mem_append, not_or] at h
    by_cases hd : d = c
    · rw [if_pos hd] at h; exact absurd ht h.1
    · rw [if_neg hd, ih h.2]; rfl

theorem replaceChar_head (c : Char) (t : Str) (s : Str) (ht : t.head? = some '_') :
    (replaceChar c t s).head? = s.head?.map fun d => if d = c then '_' else d := by
  unfold replaceChar
  cases s with
  | nil => rfl
  | cons d s =>
    rw [List.flatMap_cons, List.head?_append]
    by_cases hd : d = c
    · rw [if_pos hd, ht]; simp [hd]
    · rw [if_neg hd]; simp [hd]

/-- The text after the three replacements. -/
def spelled (u : Str) : Str :=
  replaceChar '+' "_plus_".toList (replaceChar '-' "_minus_".toList (replaceChar ' ' "_".toList u))

theorem spelled_plain {u : Str} (h : '_' ∉ spelled u) : spelled u = u := by
  unfold spelled at h ⊢
  have h1 := replaceChar_plain (by decide) h
  rw [h1] at h ⊢
  have h2 := replaceChar_plain (by decide) h
  rw [h2] at h ⊢
  exact replaceChar_plain (by decide) h

theorem isIdent_iff (s : Str) : isIdent s = true ↔ s ≠ [] ∧
    (∀ c, s.head? = some c → (c.isAlpha || c == '_') = true) ∧
    (s.all fun c => c.isAlphanum || c == '_') = true := by
  cases s with
  | nil => simp [isIdent]
  | cons c s =>
    simp only [isIdent, Bool.and_eq_true, ne_eq, reduceCtorEq, not_false_eq_true, List.head?_cons,
      Option.some.injEq, forall_eq', List.all_cons, true_and]
    constructor
    · rintro ⟨h1, h2⟩
      refine ⟨h1, ?_, h2⟩
      rw [Bool.or_eq_true] at h1 ⊢
      exact h1.imp (fun h => by unfold Char.isAlphanum; rw [h]; rfl) id
    · rintro ⟨h1, _, h2⟩; exact ⟨h1, h2⟩

/-- **C32**: the texts accepted as units in a conversion. -/
theorem unit_text (u : Str) : (∃ s, unitsToString u = .ok s) ↔ UnitText u := by
  have h1 : spelled u = "1".toList ↔ u = "1".toList := by
    constructor
    · intro h
      exact (spelled_plain (u := u) (by rw [h]; decide)).symm.trans h
    · rintro rfl; decide
  have hk : spelled u ∈ keywords ↔ u ∈ keywords := by
    have hn : ∀ k ∈ keywords, '_' ∉ k ∧ spelled k = k := by decide +kernel
    constructor
    · intro h; have e := spelled_plain (hn _ h).1; rwa [e] at h
    · intro h; rwa [(hn _ h).2]
  have hne : spelled u ≠ [] ↔ u ≠ [] := by
    have : (spelled u).head? = none ↔ u.head? = none := by
      unfold spelled
      rw [replaceChar_head _ _ _ rfl, replaceChar_head _ _ _ rfl, replaceChar_head _ _ _ rfl]
      simp
    rw [List.head?_eq_none_iff, List.head?_eq_none_iff] at this
    exact not_congr this
  have hall : (spelled u).all (fun c => c.isAlphanum || c == '_') = true ↔
      ∀ c ∈ u, c.isAlphanum = true ∨ c ∈ ['_', ' ', '+', '-'] := by
    unfold spelled
    rw [replaceChar_all _ _ _ _ (by decide) (by decide), replaceChar_all _ _ _ _ (by decide) (by decide),
      replaceChar_all _ _ _ _ (by decide) (by decide), List.all_eq_true]
    refine forall₂_congr fun c _ => ?_
    simp only [Bool.or_eq_true, beq_iff_eq, List.mem_cons, List.not_mem_nil, or_false]
    tauto
  have hhead : (∀ c ∈ u, c.isAlphanum = true ∨ c ∈ ['_', ' ', '+', '-']) →
      ((∀ c, (spelled u).head? = some c → (c.isAlpha || c == '_') = true) ↔
      (∀ c, u.head? = some c → c.isDigit = false)) := by
    intro hc
    unfold spelled
    rw [replaceChar_head _ _ _ rfl, replaceChar_head _ _ _ rfl, replaceChar_head _ _ _ rfl]
    cases u with
    | nil => simp
    | cons d u =>
      have hd := hc d (List.mem_cons_self)
      simp only [List.head?_cons, Option.map_some, Option.some.injEq, forall_eq']
      simp only [List.mem_cons, List.not_mem_nil, or_false] at hd
      rcases hd with hd | rfl | rfl | rfl | rfl
      · have n1 : d ≠ ' ' := by rintro rfl; exact absurd hd (by decide)
        have n2 : d ≠ '-' := by rintro rfl; exact absurd hd (by decide)
        have n3 : d ≠ '+' := by rintro rfl; exact absurd hd (by decide)
        have n4 : d ≠ '_' := by rintro rfl; exact absurd hd (by decide)
        simp only [n1, n2, n3, if_false]
        have : (d == '_') = false := by simpa using n4
        rw [this, Bool.or_false]
        have ex : d.isAlpha = true → d.isDigit = false := by
          unfold Char.isAlpha Char.isUpper Char.isLower Char.isDigit
          simp only [Bool.or_eq_true, Bool.and_eq_true, decide_eq_true_eq, Bool.and_eq_false_iff,
            decide_eq_false_iff_not, UInt32.le_iff_toNat_le, ge_iff_le]
          simp
          omega
        constructor
        · exact ex
        · intro h
          unfold Char.isAlphanum at hd
          rw [h, Bool.or_false] at hd
          exact hd
      all_goals decide
  have key : unitsToString u = if !isIdent (if spelled u = "1".toList then "one".toList else spelled u)
      then .error "Unsupported units entry"
      else if keywords.contains (if spelled u = "1".toList then "one".toList else spelled u)
      then .error "Invalid units entry"
      else .ok (if spelled u = "1".toList then "one".toList else spelled u) := rfl
  rw [key]
  by_cases e : u = "1".toList
  · rw [if_pos (h1.2 e)]
    refine ⟨fun _ => Or.inl e, fun _ => ⟨"one".toList, by decide⟩⟩
  · rw [if_neg (fun h => e (h1.1 h))]
    unfold UnitText
    rw [or_iff_right e, ← hk, ← hne]
    cases hi : isIdent (spelled u) with
    | false =>
      simp only [Bool.not_false, if_true]
      refine ⟨fun ⟨s, h⟩ => (nomatch h), fun ⟨a, b, c, d⟩ => ?_⟩
      have := (isIdent_iff _).2 ⟨a, (hhead b).2 c, hall.2 b⟩
      rw [hi] at this; cases this
    | true =>
      obtain ⟨a, b, c⟩ := (isIdent_iff _).1 hi
      have hu := hall.1 c
      simp only [Bool.not_true, Bool.false_eq_true, if_false, List.contains_iff_mem]
      by_cases hkk : spelled u ∈ keywords
      · rw [if_pos hkk]
        exact ⟨fun ⟨s, h⟩ => (nomatch h), fun h => absurd hkk h.2.2.2⟩
      · rw [if_neg hkk]
        exact ⟨fun _ => ⟨a, hu, (hhead hu).1 b, hkk⟩, fun _ => ⟨_, rfl⟩⟩

/-- Non-trivial instances. -/
example : UnitText "kg m-2 s-1".toList ∧ ¬ UnitText "m2/s".toList ∧ ¬ UnitText "in".toList := by
  refine ⟨?_, ?_, ?_⟩
  · exact (unit_text _).1 ⟨"kg_m_minus_2_s_minus_1".toList, by decide⟩
  · rw [← unit_text]; rintro ⟨s, h⟩
    have : unitsToString "m2/s".toList = .error "Unsupported units entry" := by decide
    rw [this] at h; cases h
  · rw [← unit_text]; rintro ⟨s, h⟩
    have : unitsToString "in".toList = .error "Invalid units entry" := by decide
    rw [this] at h; cases h

/-- The known unit a text stands for. -/
def StandsFor (u : Str) (w : Str × Meaning) : Prop := w ∈ units ∧ mangle u = mangle w.1

/-- **C32**: whenever a conversion is recorded, both texts stand for known units of the same
dimension; the forward formula preserves the physical value of every number, and the reverse
formula undoes it. -/
theorem conversion_correct {u1 u2 f r : Str} (h : convStrs u1 u2 = .ok (f, r)) :
    ∃ w1 w2, StandsFor u1 w1 ∧ StandsFor u2 w2 ∧ w1.2.dim = w2.2.dim ∧
      ∀ x, ∃ y, apply f x = some y ∧ w2.2.base y = w1.2.base x ∧ apply r y = some x := by
  obtain ⟨hf, hr⟩ := convStrs_ok h
  obtain ⟨w1, m1, w2, m2, e1, e2, hd, p, q, hp, h1, h2⟩ := lookup_ok hf
  obtain ⟨w2', m2', w1', m1', e2', e1', _, p', q', hp', h1', h2'⟩ := lookup_ok hr
  have : w1' = w1 := mangle_inj m1' m1 (e1'.symm.trans e1)
  subst this
  have : w2' = w2 := mangle_inj m2' m2 (e2'.symm.trans e2)
  subst this
  refine ⟨w1', w2', ⟨m1, e1⟩, ⟨m2, e2⟩, hd, fun x => ⟨p * x + q, ?_, ?_, ?_⟩⟩
  · unfold apply; rw [hp]; rfl
  · unfold Meaning.base; rw [← h1, ← h2]; ring
  · unfold apply
    rw [hp']
    simp only [Option.map_some, Option.some.injEq]
    have s1 := scale_ne m1
    apply mul_left_cancel₀ s1
    have e : w1'.2.scale * (p' * (p * x + q) + q') =
        (w1'.2.scale * p') * (p * x) + (w1'.2.scale * p') * q + w1'.2.scale * q' := by ring
    rw [e, h1']
    have e3 : w2'.2.scale * (p * x) = (w2'.2.scale * p) * x := by ring
    rw [e3, h1]
    linarith

/-- Non-trivial instances. -/
example : convStrs "kg kg-1".toList "g kg-1".toList =
    .ok ("1.0E+3{kind}*{var}".toList, "1.0E-3{kind}*{var}".toList) := by decide +kernel
example : apply "{var}-273.15{kind}".toList 300 = some (2685 / 100) := by decide +kernel

/-- **C32**: a chain of conversions gives the same value as the direct conversion. -/
theorem chain_agrees {a b c f g k f' g' k' : Str} (h1 : convStrs a b = .ok (f, f'))
    (h2 : convStrs b c = .ok (g, g')) (h3 : convStrs a c = .ok (k, k')) (x : Rat) :
    (apply f x).bind (apply g) = apply k x ∧ (apply k x).isSome := by
  obtain ⟨wa, wb, sa, sb, _, H1⟩ := conversion_correct h1
  obtain ⟨wb', wc, sb', sc, _, H2⟩ := conversion_correct h2
  obtain ⟨wa', wc', sa', sc', _, H3⟩ := conversion_correct h3
  have : wb' = wb := mangle_inj sb'.1 sb.1 (sb'.2.symm.trans sb.2)
  subst this
  have : wa' = wa := mangle_inj sa'.1 sa.1 (sa'.2.symm.trans sa.2)
  subst this
  have : wc' = wc := mangle_inj sc'.1 sc.1 (sc'.2.symm.trans sc.2)
  subst this
  obtain ⟨y, hy, ey, _⟩ := H1 x
  obtain ⟨z, hz, ez, _⟩ := H2 y
  obtain ⟨z', hz', ez', _⟩ := H3 x
  rw [hy, hz']
  refine ⟨?_, rfl⟩
  simp only [Option.bind_some, hz, Option.some.injEq]
  rw [ey, ← ez'] at ez
  unfold Meaning.base at ez
  exact mul_left_cancel₀ (scale_ne sc.1) (by linarith)

example : (convStrs "mm".toList "m".toList).toOption.isSome ∧ (convStrs "m".toList "km".toList).toOption.isSome ∧
    (convStrs "mm".toList "km".toList).toOption.isSome := by decide +kernel

theorem reverse_listed : (table.all fun p => units.all fun u => units.all fun v =>
    p.1 != convName (mangle u.1) (mangle v.1) ||
      ((lookup (convName (mangle v.1) (mangle u.1))).isSome &&
       (unitsToString u.1).toOption.isSome && (unitsToString v.1).toOption.isSome)) = true := by
  decide +kernel

/-- **C32**: if the table has a conversion between two known units in one direction, the pair is
supported, i.e. it has both. -/
theorem both_directions {u v : Str × Meaning} (hu : u ∈ units) (hv : v ∈ units) {f : Str}
    (h : lookup (convName (mangle u.1) (mangle v.1)) = some f) :
    ∃ r, convStrs u.1 v.1 = .ok (f, r) := by
  have := List.all_eq_true.1 (List.all_eq_true.1 (List.all_eq_true.1 reverse_listed _ (lookup_mem h)) u hu) v hv
  simp only [bne_self_eq_false, Bool.false_or, Bool.and_eq_true] at this
  obtain ⟨⟨h1, h2⟩, h3⟩ := this
  have hs : ∀ u : Str, (unitsToString u).toOption.isSome = true → unitsToString u = .ok (mangle u) := by
    intro u hu
    unfold unitsToString at hu ⊢
    simp only at hu ⊢
    split
    · next hh => rw [if_pos hh] at hu; cases hu
    · next hh =>
      rw [if_neg hh] at hu
      split
      · next hh' => rw [if_pos hh'] at hu; cases hu
      · rfl
  obtain ⟨r, hr⟩ := Option.isSome_iff_exists.1 h1
  refine ⟨r, ?_⟩
  unfold convStrs
  rw [hs _ h2, hs _ h3]
  simp only [h, hr]

/-- **C32**: swapping the units swaps the two formulas. -/
theorem conversion_symmetric (u1 u2 f r : Str) : convStrs u1 u2 = .ok (f, r) ↔ convStrs u2 u1 = .ok (r, f) := by
  have key : ∀ u1 u2 f r, convStrs u1 u2 = .ok (f, r) → convStrs u2 u1 = .ok (r, f) := by
    intro u1 u2 f r h
    unfold convStrs at h ⊢
    cases h1 : unitsToString u1 with
    | error e => rw [h1] at h; cases h
    | ok a =>
      cases h2 : unitsToString u2 with
      | error e => rw [h1, h2] at h; cases h
      | ok b =>
        rw [h1, h2] at h
        simp only at h ⊢
        cases h3 : lookup (convName a b) with
        | none => rw [h3] at h; cases h
        | some f' =>
          cases h4 : lookup (convName b a) with
          | none => rw [h3, h4] at h; cases h
          | some r' => rw [h3, h4] at h; cases h; rfl
  exact ⟨key _ _ _ _, key _ _ _ _⟩

/-- **C29** with the actual conversion table: the verdict on two variables does not depend on
their order. -/
theorem verdict_symmetric (spec : Option Str → Option Str) (v1 v2 : VC.V) :
    VC.summary (VC.compat spec convStrs v1 v2 false) = VC.summary (VC.compat spec convStrs v2 v1 false) := by
  apply VC.verdict_symmetric
  rintro a b ⟨e, he⟩
  cases h : convStrs b a with
  | error e => exact ⟨e, rfl⟩
  | ok p => rw [(conversion_symmetric b a p.1 p.2).1 h] at he; cases he

/-- Texts that are not spelled like any known unit, such as `degree north`, may be converted too:
two spellings can have the same Python name. -/
theorem spelling_collision : mangle "degree north".toList = mangle "degree_north".toList ∧
    (convStrs "degree north".toList "radian".toList).toOption.isSome = true := by decide +kernel

end Ccpp.Units
