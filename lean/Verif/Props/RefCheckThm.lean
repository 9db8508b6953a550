import Verif.Props.RefCheck
/-!
# C85: exactly which units, references, types and diagnostic names are accepted
-/
namespace Ccpp.RC

open Ccpp.Rx
open Ccpp.FDecl (Blank Tight strip_tight strip_core strip_split)

theorem reject_ne (e : Bool) (v : Str) : reject e ≠ .ok (some v) := by unfold reject; cases e <;> simp

/-- C85: exactly the accepted units; the value is returned as it was given. -/
theorem C85_units (v w : Str) (e : Bool) :
    units v e = .ok (some w) ↔ (w = v ∧ (strip v = ['1'] ∨ UnitList (strip v) ∨ Joined (strip v))) := by
  unfold units
  rw [← units_accept]
  split
  · next h => simp [h, eq_comm]
  · next h => simp [reject_ne, h]

/-- C85: a rejected unit is a CCPPError or None, as the caller wants it. -/
theorem C85_units_reject (v : Str) : (units v false = .ok (some v) ∧ units v true = .ok (some v)) ∨
    (units v false = .ok none ∧ units v true = .error) := by
  unfold units reject
  split
  · exact .inl ⟨rfl, rfl⟩
  · exact .inr ⟨rfl, rfl⟩

/-- The verdict on a name. -/
theorem fortranId_val (v : Str) (m : Nat) : (∃ w, Chk.fortranId v false m = .val w) ↔
    (Chk.fidMatch v = true ∧ (m = 0 ∨ v.length ≤ m)) := by
  unfold Chk.fortranId
  cases h : Chk.fidMatch v with
  | false => simp
  | true =>
    simp only [Bool.true_eq_false, if_false, true_and]
    split
    · next h => simp; omega
    · next h => simp; omega

theorem dropWhile_nil_iff {p : Char → Bool} {s : Str} : s.dropWhile p = [] ↔ ∀ c ∈ s, p c = true := by
  induction s with
  | nil => simp
  | cons c s ih =>
    by_cases h : p c = true
    · rw [List.dropWhile_cons_of_pos h, ih]; simp [h]
    · rw [List.dropWhile_cons_of_neg h]; simp [h]

theorem fidMatch_iff (v : Str) : Chk.fidMatch v = true ↔ UpToNewline Chk.IsName v := by
  unfold UpToNewline Chk.IsName
  cases v with
  | nil => simp [Chk.fidMatch]
  | cons c s =>
    rw [Chk.fidMatch, Bool.and_eq_true, Bool.or_eq_true, beq_iff_eq, beq_iff_eq, dropWhile_nil_iff]
    simp only [isWordC_iff]
    constructor
    · rintro ⟨hc, h | h⟩
      · exact .inl ⟨c, s, rfl, hc, h⟩
      · refine .inr ⟨c :: s.takeWhile isWordC, ?_, c, _, rfl, hc, ?_⟩
        · have := List.takeWhile_append_dropWhile (p := isWordC) (l := s)
          rw [h] at this
          rw [List.cons_append, this]
        · intro x hx
          exact (isWordC_iff x).1 (List.all_eq_true.1 List.all_takeWhile x hx)
    · rintro (⟨c', cs, e, hc, h⟩ | ⟨t, e, c', cs, rfl, hc, h⟩)
      · obtain ⟨rfl, rfl⟩ := List.cons.inj e
        exact ⟨hc, .inl h⟩
      · rw [List.cons_append] at e
        obtain ⟨rfl, rfl⟩ := List.cons.inj e
        refine ⟨hc, .inr ?_⟩
        rw [List.dropWhile_append_of_pos (fun x hx => (isWordC_iff x).2 (h x hx))]
        rfl

/-- C85: exactly the accepted references: a name, or a name with one to seven subscripts, and every name and
subscript is at most `m` long (if `m` is positive). -/
theorem C85_ref (v w : Str) (e : Bool) (m : Nat) :
    fortranRef v e m = .ok (some w) ↔ (w = v ∧
      ((UpToNewline Chk.IsName v ∧ (m = 0 ∨ v.length ≤ m)) ∨
       UpToNewline (fun t => ∃ n ds, ds.length ≤ 7 ∧ Ref n ds t ∧ (m = 0 ∨ ∀ x ∈ n :: ds, x.length ≤ m)) v)) := by
  unfold fortranRef
  by_cases hid : Chk.fidMatch v = true ∧ (m = 0 ∨ v.length ≤ m)
  · obtain ⟨u, hu⟩ := (fortranId_val v m).2 hid
    rw [hu]
    rw [fidMatch_iff] at hid
    simp only [Out.ok.injEq, Option.some.injEq]
    constructor
    · rintro rfl; exact ⟨rfl, .inl hid⟩
    · rintro ⟨rfl, -⟩; rfl
  · have hno : ¬ ∃ u, Chk.fortranId v false m = .val u := fun h => hid ((fortranId_val v m).1 h)
    rw [fidMatch_iff] at hid
    split
    · next u hu => exact absurd ⟨u, hu⟩ hno
    have hsr := dollar_iff scalarRef v
    simp only [scalarRef_iff] at hsr
    -- the tokens of an accepted text
    have htok : ∀ n ds t, ds.length ≤ 7 → Ref n ds t → (v = t ∨ v = t ++ ['\n']) → refTokens v = n :: ds :=
      fun n ds t _ h hv => ref_tokens h hv
    by_cases hd : scalarRef.dollar v = true
    · rw [if_neg (by rw [hd]; decide)]
      obtain ⟨n, ds, t, hl, hr, hv⟩ : ∃ n ds t, ds.length ≤ 7 ∧ Ref n ds t ∧ (v = t ∨ v = t ++ ['\n']) := by
        rcases hsr.1 hd with ⟨n, ds, h1, h2⟩ | ⟨t, e, n, ds, h1, h2⟩
        · exact ⟨n, ds, v, h1, h2, .inl rfl⟩
        · exact ⟨n, ds, t, h1, h2, .inr e⟩
      have ht := htok n ds t hl hr hv
      rw [ht]
      have hany : (m > 0 ∧ (n :: ds).any (fun t => decide (t.length > m)) = true) ↔
          ¬ (m = 0 ∨ ∀ x ∈ n :: ds, x.length ≤ m) := by
        rw [List.any_eq_true]
        constructor
        · rintro ⟨h1, x, hx, h2⟩ (h | h)
          · omega
          · have := h x hx; simp at h2; omega
        · intro h
          rw [not_or] at h
          refine ⟨by omega, ?_⟩
          have := h.2
          simp only [not_forall] at this
          obtain ⟨x, hx, h2⟩ := this
          exact ⟨x, hx, by simp; omega⟩
      have hrhs : UpToNewline (fun t => ∃ n ds, ds.length ≤ 7 ∧ Ref n ds t ∧ (m = 0 ∨ ∀ x ∈ n :: ds, x.length ≤ m)) v ↔
          (m = 0 ∨ ∀ x ∈ n :: ds, x.length ≤ m) := by
        constructor
        · rintro (⟨n', ds', h1, h2, h3⟩ | ⟨t', e', n', ds', h1, h2, h3⟩)
          · have := htok n' ds' v h1 h2 (.inl rfl)
            rw [ht] at this
            rw [this]; exact h3
          · have := htok n' ds' t' h1 h2 (.inr e')
            rw [ht] at this
            rw [this]; exact h3
        · intro h
          rcases hv with rfl | rfl
          · exact .inl ⟨n, ds, hl, hr, h⟩
          · exact .inr ⟨t, rfl, n, ds, hl, hr, h⟩
      rw [hrhs]
      by_cases hb : (m = 0 ∨ ∀ x ∈ n :: ds, x.length ≤ m)
      · rw [if_neg (fun h => hany.1 h hb)]
        simp only [Out.ok.injEq, Option.some.injEq]
        constructor
        · rintro rfl; exact ⟨rfl, .inr hb⟩
        · rintro ⟨rfl, -⟩; rfl
      · rw [if_pos (hany.2 hb)]
        constructor
        · intro h; exact absurd h (reject_ne e w)
        · rintro ⟨-, h | h⟩
          · exact absurd h hid
          · exact absurd h hb
    · rw [if_pos (by cases hh : scalarRef.dollar v with
        | false => rfl
        | true => exact absurd hh hd)]
      constructor
      · intro h; exact absurd h (reject_ne e w)
      · rintro ⟨-, h | h⟩
        · exact absurd h hid
        · exfalso
          apply hd
          rw [hsr]
          rcases h with ⟨n, ds, h1, h2, -⟩ | ⟨t, e, n, ds, h1, h2, -⟩
          · exact .inl ⟨n, ds, h1, h2⟩
          · exact .inr ⟨t, e, n, ds, h1, h2⟩

/-- C85: a reference is accepted or rejected, never anything else. -/
theorem C85_ref_reject (v : Str) (m : Nat) : (fortranRef v false m = .ok (some v) ∧ fortranRef v true m = .ok (some v)) ∨
    (fortranRef v false m = .ok none ∧ fortranRef v true m = .error) := by
  unfold fortranRef reject
  split
  · exact .inl ⟨rfl, rfl⟩
  · split
    · exact .inr ⟨rfl, rfl⟩
    · split
      · exact .inr ⟨rfl, rfl⟩
      · exact .inl ⟨rfl, rfl⟩

/-- C85: exactly the accepted local names: references, and constants of the type and kind of a protected
variable. -/
theorem C85_local_name (v w : Str) (p : NameProps) (e : Bool) (m : Nat) :
    localName v p e m = .ok (some w) ↔ (w = v ∧
      ((p.prot = true ∧ p.type ≠ [] ∧ Lit.literal v p.type p.kind = .ok true) ∨
       (fortranRef v e m = .ok (some v) ∧
        ((p.prot = true ∧ p.type ≠ []) → Lit.literal v p.type p.kind = .ok true ∨ Lit.literal v p.type p.kind = .ok false)))) := by
  have hw : ∀ w, fortranRef v e m = .ok (some w) → w = v := fun w h => ((C85_ref v w e m).1 h).1
  unfold localName
  by_cases hp : (p.prot && !p.type.isEmpty) = true
  · rw [if_pos hp]
    rw [Bool.and_eq_true, Bool.not_eq_true', List.isEmpty_eq_false_iff] at hp
    cases hl : Lit.literal v p.type p.kind with
    | ok b =>
      cases b with
      | true => simp [hp.1, hp.2, eq_comm]
      | false =>
        simp only [hp.1, hp.2, Lit.Out.ok.injEq]
        constructor
        · intro h; have := hw w h; subst this; exact ⟨rfl, .inr ⟨h, by simp⟩⟩
        · rintro ⟨rfl, h | h⟩
          · simp at h
          · exact h.1
    | index => simp [hp.1, hp.2]
    | internal => simp [hp.1, hp.2]
    | error => simp [hp.1, hp.2]
  · rw [if_neg hp]
    rw [Bool.and_eq_true, Bool.not_eq_true', List.isEmpty_eq_false_iff] at hp
    constructor
    · intro h; have := hw w h; subst this; exact ⟨rfl, .inr ⟨h, fun h => absurd h hp⟩⟩
    · rintro ⟨rfl, h | h⟩
      · exact absurd ⟨h.1, h.2.1⟩ hp
      · exact h.1

/-! ## Types -/

theorem lower_lower (s : Str) : lower (lower s) = lower s := by
  unfold lower
  rw [List.map_map]
  refine List.map_congr_left fun c _ => ?_
  show c.toLower.toLower = c.toLower
  rw [← Lit.lower_upper, Lit.upper_lower, Lit.lower_upper]

theorem dpMatch_iff {c : Str} (h : lower c = c) : Lit.dpMatch c = true ↔
    ∃ b r, (∀ x ∈ b, White x) ∧ c = "double".toList ++ b ++ "precision".toList ++ r := by
  unfold Lit.dpMatch Lit.afterDouble
  rw [h, Bool.and_eq_true, List.isPrefixOf_iff_prefix, List.isPrefixOf_iff_prefix]
  constructor
  · rintro ⟨⟨t, rfl⟩, h2⟩
    rw [show ("double".toList ++ t).drop 6 = t from rfl] at h2
    obtain ⟨r, hr⟩ := h2
    refine ⟨t.takeWhile isWs, r, fun x hx => (white_iff x).2 (List.all_eq_true.1 List.all_takeWhile x hx), ?_⟩
    have := List.takeWhile_append_dropWhile (p := isWs) (l := t)
    rw [← hr] at this
    rw [List.append_assoc, List.append_assoc, this]
  · rintro ⟨b, r, hb, rfl⟩
    refine ⟨⟨b ++ "precision".toList ++ r, by simp only [List.append_assoc]⟩, ?_⟩
    have e : ("double".toList ++ b ++ "precision".toList ++ r).drop 6 = b ++ ("precision".toList ++ r) := by
      rw [List.append_assoc, List.append_assoc]; rfl
    rw [e, List.dropWhile_append_of_pos (fun x hx => (white_iff x).1 (hb x hx))]
    exact ⟨r, rfl⟩

theorem isIntrinsic_iff (t : Str) : isIntrinsic t = true ↔
    (lower (strip t) ∈ ["integer".toList, "real".toList, "logical".toList, "complex".toList, "character".toList] ∨
      ∃ b r, (∀ c ∈ b, White c) ∧ lower (strip t) = "double".toList ++ b ++ "precision".toList ++ r) := by
  unfold isIntrinsic
  simp only
  have hl := lower_lower (strip t)
  generalize lower (strip t) = c at hl ⊢
  rw [Bool.or_eq_true, Bool.and_eq_true, dpMatch_iff hl, List.contains_iff_mem, beq_iff_eq]
  constructor
  · rintro (h | ⟨-, h⟩)
    · simp only [intrinsicTypes, List.mem_cons, List.not_mem_nil, or_false] at h
      rcases h with h | h | h | h | h | h
      · exact .inl (by rw [h]; decide)
      · exact .inl (by rw [h]; decide)
      · exact .inl (by rw [h]; decide)
      · exact .inl (by rw [h]; decide)
      · exact .inr ⟨[' '], [], by intro x hx; exact .inl (List.mem_singleton.1 hx), by rw [h]; decide⟩
      · exact .inl (by rw [h]; decide)
    · exact .inr h
  · rintro (h | h)
    · left
      simp only [List.mem_cons, List.not_mem_nil, or_false] at h
      rcases h with h | h | h | h | h <;> rw [h] <;> decide
    · refine .inr ⟨?_, h⟩
      obtain ⟨b, r, -, rfl⟩ := h
      rw [List.append_assoc, List.append_assoc]; rfl

/-- C85: exactly the accepted types: the intrinsic types in any case of letters, whatever begins like double
precision, and the registered derived types. -/
theorem C85_type (ddts : List Str) (t w : Str) (e : Bool) :
    fortranType ddts t e = .ok (some w) ↔ (w = t ∧ (t ∈ ddts ∨
      lower (strip t) ∈ ["integer".toList, "real".toList, "logical".toList, "complex".toList, "character".toList] ∨
      ∃ b r, (∀ c ∈ b, White c) ∧ lower (strip t) = "double".toList ++ b ++ "precision".toList ++ r)) := by
  rw [← isIntrinsic_iff]
  unfold fortranType
  by_cases h : (isIntrinsic t || ddts.contains t) = true
  · rw [if_pos h]
    rw [Bool.or_eq_true, List.contains_iff_mem] at h
    simp only [Out.ok.injEq, Option.some.injEq]
    constructor
    · rintro rfl; exact ⟨rfl, h.symm⟩
    · rintro ⟨rfl, -⟩; rfl
  · rw [if_neg h]
    rw [Bool.or_eq_true, List.contains_iff_mem] at h
    constructor
    · intro h'; exact absurd h' (reject_ne e w)
    · rintro ⟨-, h'⟩; exact absurd h'.symm h

/-- C85: the intrinsic types do not depend on the registered derived types. -/
theorem C85_intrinsic (t : Str) (e : Bool) : fortranIntrinsic t e = fortranType [] t e := by
  unfold fortranIntrinsic fortranType
  simp

/-- C85: after a derived type is registered it is accepted, and so is everything accepted before; registering it
again changes nothing. -/
theorem C85_register (ddts : List Str) (t : Str) (e : Bool) :
    fortranType (registerDdt ddts t) t e = .ok (some t) ∧
    (∀ u, fortranType (registerDdt ddts t) u e = .ok (some u) ↔ (u = t ∨ fortranType ddts u e = .ok (some u))) ∧
    registerDdt (registerDdt ddts t) t = registerDdt ddts t := by
  have hm : ∀ u, u ∈ registerDdt ddts t ↔ (u = t ∨ u ∈ ddts) := by
    intro u
    unfold registerDdt
    split
    · next h =>
      rw [List.contains_iff_mem] at h
      constructor
      · exact .inr
      · rintro (rfl | h')
        · exact h
        · exact h'
    · simp [or_comm]
  refine ⟨(C85_type _ _ _ _).2 ⟨rfl, .inl ((hm t).2 (.inl rfl))⟩, fun u => ?_, ?_⟩
  · rw [C85_type, C85_type, hm]
    simp only [true_and]
    constructor
    · rintro ((h | h) | h)
      · exact .inl h
      · exact .inr (.inl h)
      · exact .inr (.inr h)
    · rintro (h | h | h)
      · exact .inl (.inl h)
      · exact .inl (.inr h)
      · exact .inr h
  · have : (registerDdt ddts t).contains t = true := List.contains_iff_mem.2 ((hm t).2 (.inl rfl))
    generalize registerDdt ddts t = d at this
    unfold registerDdt
    rw [if_pos this]

/-! ## Diagnostic names -/

theorem diag_iff (s : Str) : L diagRe s ↔ Diag s := by
  unfold diagRe
  rw [L_seq]
  simp only [L_opt, L_seq, L_alt, L_text, L_plus_chr, id_iff, isWordC_iff]
  constructor
  · rintro ⟨n, y, rfl, hn, rfl | ⟨v, r, rfl, hv, hr⟩⟩
    · rw [List.append_nil]; exact .plain hn
    · rw [← List.append_assoc]
      refine .subst hn hv ?_
      rcases hr with rfl | ⟨-, h⟩
      · intro c hc; simp at hc
      · exact h
  · intro h
    cases h with
    | plain hn => exact ⟨s, [], by simp, hn, .inl rfl⟩
    | @subst n v r hn hv hr =>
      refine ⟨n, v ++ r, by simp, hn, .inr ⟨v, r, rfl, hv, ?_⟩⟩
      cases r with
      | nil => exact .inl rfl
      | cons c r => exact .inr ⟨by simp, hr⟩

/-- C85: exactly the accepted diagnostic names. -/
theorem C85_diagnostic (v w : Str) (d : Option DiagProps) (e : Bool) :
    diagId v d e = .ok (some w) ↔ (w = v ∧ UpToNewline Diag v ∧
      ∀ p x, d = some p → p.fixed = some x → x = []) := by
  have hf : d.any (fun p => present p.fixed) = true ↔
      ¬ ∀ p x, d = some p → p.fixed = some x → x = [] := by
    cases d with
    | none => simp
    | some p =>
      rw [Option.any_some]
      simp only [present]
      cases hp : p.fixed with
      | none => simp [hp]
      | some x => cases x <;> simp [hp]
  unfold diagId
  by_cases h : d.any (fun p => present p.fixed) = true
  · rw [if_pos h]
    constructor
    · intro h'; exact absurd h' (reject_ne e w)
    · rintro ⟨-, -, h'⟩; exact absurd h' (hf.1 h)
  · rw [if_neg h]
    have h' := not_not.1 (mt hf.2 h)
    have hd := dollar_iff diagRe v
    simp only [diag_iff] at hd
    split
    · next hm =>
      simp only [Out.ok.injEq, Option.some.injEq]
      constructor
      · rintro rfl; exact ⟨rfl, hd.1 hm, h'⟩
      · rintro ⟨rfl, -⟩; rfl
    · next hm =>
      constructor
      · intro h'; exact absurd h' (reject_ne e w)
      · rintro ⟨-, h2, -⟩; exact absurd (hd.2 h2) hm

/-- C85: exactly the accepted fixed diagnostic names. -/
theorem C85_diagnostic_fixed (v w : Str) (d : Option DiagProps) (e : Bool) :
    diagFixed v d e = .ok (some w) ↔ (w = v ∧ UpToNewline Chk.IsName v ∧
      ∀ p x, d = some p → p.name = some x → x = []) := by
  have hf : d.any (fun p => present p.name) = true ↔
      ¬ ∀ p x, d = some p → p.name = some x → x = [] := by
    cases d with
    | none => simp
    | some p =>
      rw [Option.any_some]
      simp only [present]
      cases hp : p.name with
      | none => simp [hp]
      | some x => cases x <;> simp [hp]
  unfold diagFixed
  by_cases h : d.any (fun p => present p.name) = true
  · rw [if_pos h]
    constructor
    · intro h'; exact absurd h' (reject_ne e w)
    · rintro ⟨-, -, h'⟩; exact absurd h' (hf.1 h)
  · rw [if_neg h]
    have h' := not_not.1 (mt hf.2 h)
    rw [← fidMatch_iff]
    have hv := fortranId_val v 0
    simp only [true_or, and_true] at hv
    split
    · next u hu =>
      simp only [Out.ok.injEq, Option.some.injEq]
      constructor
      · rintro rfl; exact ⟨rfl, hv.1 ⟨u, hu⟩, h'⟩
      · rintro ⟨rfl, -⟩; rfl
    · next hu =>
      constructor
      · intro h2; exfalso; revert h2
        cases e
        · simp
        · simp only [if_true]; split <;> simp
      · rintro ⟨-, h2, -⟩
        obtain ⟨u, hu'⟩ := hv.2 h2
        exact absurd hu' (hu u)

/-- C85: a variable cannot have both a diagnostic name and a fixed diagnostic name. -/
theorem C85_diagnostic_exclusive (p : DiagProps) {a b : Str} (ha : p.name = some a) (hb : p.fixed = some b) (ha' : a ≠ [])
    (hb' : b ≠ []) (v : Str) :
    diagId v (some p) true = .error ∧ diagFixed v (some p) true = .error ∧ diagId v (some p) false = .ok none ∧
      diagFixed v (some p) false = .ok none := by
  have h1 : present p.name = true := by
    rw [ha]; cases a with
    | nil => exact absurd rfl ha'
    | cons => rfl
  have h2 : present p.fixed = true := by
    rw [hb]; cases b with
    | nil => exact absurd rfl hb'
    | cons => rfl
  unfold diagId diagFixed
  simp [h1, h2, reject]

theorem diag_nodollar {n : Str} (h : n = [] ∨ Chk.IsName n) : '$' ∉ n := by
  rcases h with rfl | h
  · simp
  · intro hm; exact (wordC_not (name_chars h _ hm)).2.2.2.2.2.1 rfl

/-- C85: whatever name is substituted in an accepted diagnostic name, the result is a legal Fortran name — if the
accepted text is not empty and does not end in a newline. -/
theorem C85_diagnostic_legal_partial {v x y : Str} (h : Diag v) (hne : v ≠ []) (hx : Chk.IsName x) (hs : Substituted x v y) :
    Chk.IsName y := by
  have hcat : ∀ {n r : Str}, (n = [] ∨ Chk.IsName n) → WordChars r → Chk.IsName (n ++ x ++ r) := by
    intro n r hn hr
    have hxw : ∀ c ∈ x, c.isAlphanum = true ∨ c = '_' := fun c hc => (isWordC_iff c).1 (name_chars hx c hc)
    rcases hn with rfl | ⟨c, cs, rfl, h1, h2⟩
    · obtain ⟨c, cs, rfl, h1, h2⟩ := hx
      refine ⟨c, cs ++ r, by simp, h1, fun z hz => ?_⟩
      rcases List.mem_append.1 hz with hz | hz
      · exact h2 z hz
      · exact hr z hz
    · refine ⟨c, cs ++ x ++ r, by simp, h1, fun z hz => ?_⟩
      rw [List.mem_append, List.mem_append] at hz
      rcases hz with (hz | hz) | hz
      · exact h2 z hz
      · exact hxw z hz
      · exact hr z hz
  have hdol : ∀ {w : Str}, (w = "${process}".toList ∨ w = "${scheme_name}".toList) → ∃ t, w = '$' :: t ∧ '$' ∉ t := by
    rintro w (rfl | rfl)
    · exact ⟨"{process}".toList, rfl, by decide⟩
    · exact ⟨"{scheme_name}".toList, rfl, by decide⟩
  have hrd : ∀ {r : Str}, WordChars r → '$' ∉ r := by
    intro r hr hm
    exact (wordC_not ((isWordC_iff _).2 (hr _ hm))).2.2.2.2.2.1 rfl
  cases h with
  | plain hn =>
    have hd := diag_nodollar hn
    cases hs with
    | plain => exact hn.resolve_left hne
    | @subst n' w r h1 h2 =>
      obtain ⟨t, rfl, -⟩ := hdol h2
      exact absurd (by simp) hd
  | @subst n w r hn hw hr =>
    obtain ⟨t, hwt, htd⟩ := hdol hw
    generalize hv : n ++ w ++ r = v at hs
    cases hs with
    | plain hd => exact absurd (by rw [← hv, hwt]; simp) hd
    | @subst n' w' r' h1 h2 =>
      obtain ⟨t', hwt', htd'⟩ := hdol h2
      -- the first dollar sign is at the same place
      have e1 : n = n' ∧ t ++ r = t' ++ r' := by
        have e : n ++ '$' :: (t ++ r) = n' ++ '$' :: (t' ++ r') := by
          rw [hwt, hwt'] at hv
          simpa using hv
        have hsp : Chk.splitOn '$' (n ++ '$' :: (t ++ r)) = Chk.splitOn '$' (n' ++ '$' :: (t' ++ r')) := by rw [e]
        rw [Chk.splitOn_append '$' _ _ (diag_nodollar hn), Chk.splitOn_append '$' _ _ h1] at hsp
        have hn' := (List.cons.inj hsp).1
        rw [hn'] at e
        exact ⟨hn', (List.cons.inj (List.append_cancel_left e)).2⟩
      obtain ⟨rfl, e2⟩ := e1
      have e3 : r = r' := by
        have : w ++ r = w' ++ r' := by rw [hwt, hwt', List.cons_append, List.cons_append, e2]
        rcases hw with rfl | rfl <;> rcases h2 with rfl | rfl
        · exact List.append_cancel_left this
        · exfalso
          have := congrArg (fun l => l[2]?) this
          exact absurd this (by simp)
        · exfalso
          have := congrArg (fun l => l[2]?) this
          exact absurd this (by simp)
        · exact List.append_cancel_left this
      subst e3
      exact hcat hn hr

end Ccpp.RC
