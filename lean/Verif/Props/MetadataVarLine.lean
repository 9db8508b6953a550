import Verif.Props.MetadataText
/-!
# Proofs for C62: the line that starts a variable
-/
namespace Ccpp.MF

open Ccpp.FDecl (Str Blank commaJoin lstrip_blank rstrip_blank lstrip_cons lstrip_split rstrip_split strip_blank_left
  commaJoin_cons)
open Ccpp.FSub (Begins kw kws kws_iff IsKw ident ident_name splitOn_commaJoin splitOn_left)

theorem commaJoin_splitOn (s : Str) : commaJoin (Chk.splitOn ',' s) = s := by
  induction s with
  | nil => rfl
  | cons c s ih =>
    by_cases hc : c = ','
    · subst hc
      rw [Chk.splitOn, if_pos rfl, commaJoin_cons (Chk.splitOn_ne_nil _ _), ih]; rfl
    · rw [Chk.splitOn, if_neg hc]
      cases h : Chk.splitOn ',' s with
      | nil => exact absurd h (Chk.splitOn_ne_nil _ _)
      | cons t ts =>
        rw [h] at ih
        cases ts with
        | nil => rw [← ih]; rfl
        | cons u us => rw [← ih]; rfl

theorem isDim_iff (d : Str) : isDim d = true ↔ Index d := by
  unfold isDim Index
  rw [Bool.or_eq_true, beq_iff_eq]
  refine or_congr Iff.rfl ?_
  cases d with
  | nil =>
    constructor
    · intro h; cases h
    · rintro (⟨c, cs, h, _⟩ | ⟨h, _⟩)
      · cases h
      · exact absurd rfl h
  | cons c t =>
    simp only [Bool.or_eq_true, Bool.and_eq_true, List.all_eq_true]
    refine or_congr ?_ ?_
    · constructor
      · rintro ⟨h1, h2⟩
        refine ⟨c, t, rfl, h1, fun x hx => ?_⟩
        have := h2 x hx
        simpa [isWordC] using this
      · rintro ⟨c', cs, h, h1, h2⟩
        injection h with ha hb
        subst ha hb
        refine ⟨h1, fun x hx => ?_⟩
        have := h2 x hx
        simpa [isWordC] using this
    · constructor
      · rintro ⟨h1, h2⟩
        refine ⟨by simp, fun x hx => ?_⟩
        rcases List.mem_cons.1 hx with rfl | hx
        · exact h1
        · exact h2 x hx
      · rintro ⟨_, h⟩
        exact ⟨h c (by simp), fun x hx => h x (by simp [hx])⟩

theorem IsName.mem {n : Str} (h : Chk.IsName n) {c : Char} (hc : isWordC c = false) : c ∉ n := by
  obtain ⟨_, _, _, _, hw⟩ := FDecl.IsName.facts h
  intro hm; rw [hw c hm] at hc; cases hc

theorem Index.mem {d : Str} (h : Index d) {c : Char} (hc : isWordC c = false) (hc2 : c ≠ ':') : c ∉ d := by
  rcases h with rfl | h | ⟨_, h⟩
  · simp [hc2]
  · exact IsName.mem h hc
  · intro hm
    have := h c hm
    simp [isWordC, Char.isAlphanum, this] at hc

theorem Index.trimmed {d : Str} (h : Index d) : Trimmed d := by
  have hs : ∀ c ∈ d, isWs c = false := by
    intro c hc
    cases hw : isWs c with
    | false => rfl
    | true =>
      exfalso
      refine h.mem (c := c) ?_ ?_ hc
      · have hw' := hw
        unfold isWs at hw'
        simp only [Bool.or_eq_true, beq_iff_eq] at hw'
        rcases hw' with ((((rfl | rfl) | rfl) | rfl) | rfl) | rfl <;> decide
      · rintro rfl; revert hw; decide
  exact ⟨fun c hc => hs c (List.mem_of_mem_head? hc), fun c hc => hs c (List.mem_of_getLast? hc)⟩

/-- The indices of a reference as they are written. -/
abbrev Indices : List Str → List Str → Prop :=
  All2 (fun r d => Index d ∧ ∃ p q, Blank p ∧ Blank q ∧ r = p ++ d ++ q)

theorem Indices.facts {raw dims : List Str} (h : Indices raw dims) :
    raw.map strip = dims ∧ dims.all isDim = true ∧ ∀ r ∈ raw, ',' ∉ r ∧ ')' ∉ r := by
  induction h with
  | nil => simp
  | cons h _ ih =>
    obtain ⟨hi, p, q, hp, hq, rfl⟩ := h
    refine ⟨?_, ?_, ?_⟩
    · rw [List.map_cons, ih.1, strip_pad hp hq hi.trimmed]
    · rw [List.all_cons, (isDim_iff _).2 hi, ih.2.1]; rfl
    · intro r hr
      rcases List.mem_cons.1 hr with rfl | hr
      · simp only [List.mem_append, not_or]
        exact ⟨⟨⟨blank_not hp (by decide), hi.mem (by decide) (by decide)⟩, blank_not hq (by decide)⟩,
          ⟨⟨blank_not hp (by decide), hi.mem (by decide) (by decide)⟩, blank_not hq (by decide)⟩⟩
      · exact ih.2.2 r hr

theorem Indices.of {raw : List Str} (h : (raw.map strip).all isDim = true) : Indices raw (raw.map strip) := by
  induction raw with
  | nil => exact .nil
  | cons r raw ih =>
    rw [List.map_cons, List.all_cons, Bool.and_eq_true] at h
    obtain ⟨a, b, ha, hb, e⟩ := strip_split r
    exact .cons ⟨(isDim_iff _).1 h.1, a, b, ha, hb, e⟩ (ih h.2)

theorem ident_some {s n t : Str} (h : ident s = some (n, t)) : s = n ++ t ∧ Chk.IsName n := by
  unfold ident at h
  split at h
  · rename_i c r
    split at h
    · rename_i hc
      cases h
      refine ⟨(List.takeWhile_append_dropWhile).symm, ?_⟩
      have hw : isWordC c = true := by
        unfold isLetter at hc
        simp [isWordC, Char.isAlphanum, hc]
      rw [List.takeWhile_cons_of_pos hw]
      refine ⟨c, _, rfl, hc, fun x hx => ?_⟩
      have := List.all_eq_true.1 (List.all_takeWhile (p := isWordC) (l := r)) x hx
      simpa [isWordC] using this
    · cases h
  · cases h

theorem refGroups_some {s g1 g2 r : Str} (h : refGroups s = some (g1, g2, r)) :
    ∃ b raw dims, s = g1 ++ b ++ '(' :: (commaJoin raw ++ ')' :: r) ∧ Chk.IsName g1 ∧ Blank b ∧ dims ≠ [] ∧ dims.length ≤ 7 ∧
      Indices raw dims ∧ (Chk.splitOn ',' g2).map strip = dims := by
  unfold refGroups at h
  cases hi : ident s with
  | none => rw [hi] at h; cases h
  | some q =>
    obtain ⟨n, t⟩ := q
    rw [hi, Option.bind_some] at h
    obtain ⟨rfl, hn⟩ := ident_some hi
    obtain ⟨b, hb, eb⟩ := lstrip_split t
    split at h
    · rename_i t' ht'
      simp only at ht' h
      split at h
      · rename_i hc
        cases h
        obtain ⟨b2, hb2, eb2⟩ := lstrip_split t'
        obtain ⟨inner, rest, er, hr⟩ := split_first hc.1
        rw [er] at hc ⊢
        rw [takeWhile_ne hr, dropWhile_ne hr] at *
        have hsp := splitOn_left hb2 inner
        refine ⟨b, Chk.splitOn ',' (b2 ++ inner), (Chk.splitOn ',' inner).map strip, ?_, hn, hb, ?_, ?_, ?_, rfl⟩
        · rw [commaJoin_splitOn]
          conv => lhs; rw [eb, ht', eb2, er]
          simp
        · simp [Chk.splitOn_ne_nil]
        · simpa using hc.2.2
        · rw [← hsp]; exact Indices.of (by rw [hsp]; exact hc.2.1)
      · cases h
    · cases h

theorem nonword {c : Char} {T : Str} (h : isWordC c = false) : ∀ x, (c :: T).head? = some x → isWordC x = false := by
  intro x hx; injection hx with hx; subst hx; exact h

theorem ws_nonword {c : Char} (h : isWs c = true) : isWordC c = false := by
  unfold isWs at h
  simp only [Bool.or_eq_true, beq_iff_eq] at h
  rcases h with ((((rfl | rfl) | rfl) | rfl) | rfl) | rfl <;> decide

theorem blank_nonword {b T : Str} {c : Char} (hb : Blank b) (h : isWordC c = false) :
    ∀ x, (b ++ c :: T).head? = some x → isWordC x = false := by
  cases b with
  | nil => exact nonword h
  | cons d b => exact nonword (ws_nonword (hb d List.mem_cons_self))

theorem refGroups_of {n b r : Str} {raw dims : List Str} (hn : Chk.IsName n) (hb : Blank b) (hd : dims ≠ [])
    (h7 : dims.length ≤ 7) (hi : Indices raw dims) :
    refGroups (n ++ b ++ '(' :: (commaJoin raw ++ ')' :: r)) = some (n, lstrip (commaJoin raw), r) ∧
      (Chk.splitOn ',' (lstrip (commaJoin raw))).map strip = dims := by
  obtain ⟨f1, f2, f3⟩ := hi.facts
  have hne : raw ≠ [] := by rintro rfl; exact hd (by rw [← f1]; rfl)
  obtain ⟨b2, hb2, eb2⟩ := lstrip_split (commaJoin raw)
  have hsp : (Chk.splitOn ',' (lstrip (commaJoin raw))).map strip = dims := by
    rw [← splitOn_left hb2, ← eb2, splitOn_commaJoin _ hne fun t ht => (f3 t ht).1, f1]
  refine ⟨?_, hsp⟩
  have hp : ')' ∉ lstrip (commaJoin raw) := by
    intro hm
    have : ')' ∈ commaJoin raw := by rw [eb2]; simp [hm]
    rcases FSub.commaJoin_mem this with h | ⟨t, ht, hc⟩
    · revert h; decide
    · exact (f3 t ht).2 hc
  unfold refGroups
  rw [List.append_assoc, ident_name hn (blank_nonword hb (by decide)), Option.bind_some]
  have e1 : lstrip (b ++ '(' :: (commaJoin raw ++ ')' :: r)) = '(' :: (commaJoin raw ++ ')' :: r) := by
    rw [lstrip_blank hb, lstrip_cons (by decide)]
  simp only [e1]
  have e2 : lstrip (commaJoin raw ++ ')' :: r) = lstrip (commaJoin raw) ++ ')' :: r :=
    Ccpp.Env.lstrip_keep (by decide)
  rw [e2, takeWhile_ne hp, dropWhile_ne hp, hsp, if_pos]
  · rfl
  · refine ⟨by simp, f2, h7⟩

/-- How the parser keeps the name of a variable. -/
def NameOf (nm : Str) : VarName → Prop
  | .plain n => nm = n ∧ Chk.IsName n
  | .ref n dims => Chk.fidMatch nm = false ∧ ∃ g2, refGroups nm = some (n, g2, []) ∧ (Chk.splitOn ',' g2).map strip = dims

theorem closes_iff (s : Str) : closes s = true ↔ ∃ b, Blank b ∧ s = b ++ [']'] := by
  unfold closes
  rw [beq_iff_eq]
  constructor
  · intro h
    obtain ⟨b, hb, e⟩ := lstrip_split s
    exact ⟨b, hb, by rw [← h]; exact e⟩
  · rintro ⟨b, hb, rfl⟩
    rw [lstrip_blank hb, lstrip_cons (by decide)]

theorem nameOf_ref {n g2 : Str} {dims : List Str} (hn : Chk.IsName n) (hd : dims ≠ []) (h7 : dims.length ≤ 7)
    (hi : dims.all isDim = true) (hg : (Chk.splitOn ',' g2).map strip = dims) :
    NameOf (n ++ '(' :: (g2 ++ [')'])) (.ref n dims) := by
  constructor
  · cases hf : Chk.fidMatch (n ++ '(' :: (g2 ++ [')'])) with
    | false => rfl
    | true =>
      rcases (Chk.fidMatch_iff _).1 hf with h | ⟨t, _, ht⟩
      · exact absurd (by simp) (IsName.mem h (c := '(') (by decide))
      · exfalso
        have := congrArg List.getLast? ht
        rw [show n ++ '(' :: (g2 ++ [')']) = (n ++ '(' :: g2) ++ [')'] by simp] at this
        simp only [List.getLast?_append, List.getLast?_singleton, Option.some_or] at this
        revert this; decide
  · have hi' : Indices (Chk.splitOn ',' g2) dims := by rw [← hg]; exact Indices.of (by rw [hg]; exact hi)
    obtain ⟨h1, h2⟩ := refGroups_of (b := []) (r := []) hn (by intro c hc; cases hc) hd h7 hi'
    rw [List.append_nil, commaJoin_splitOn] at h1
    rw [commaJoin_splitOn] at h2
    exact ⟨_, h1, h2⟩

theorem varStart_some {s nm : Str} (h : varStart s = some nm) : ∃ v, VarLine s v ∧ NameOf nm v := by
  unfold varStart at h
  split at h
  · rename_i t
    obtain ⟨a, ha, ea⟩ := lstrip_split t
    split at h
    · rename_i r hr
      cases h
      rw [Option.filter_eq_some_iff] at hr
      obtain ⟨n, u⟩ := r
      obtain ⟨e, hn⟩ := ident_some hr.1
      obtain ⟨b, hb, rfl⟩ := (closes_iff _).1 hr.2
      refine ⟨.plain n, ?_, rfl, hn⟩
      rw [ea, e]
      have := VarLine.plain ha hn hb
      simpa using this
    · rename_i hno
      rw [Option.map_eq_some_iff] at h
      obtain ⟨⟨g1, g2, r⟩, hr, rfl⟩ := h
      rw [Option.filter_eq_some_iff] at hr
      obtain ⟨b, raw, dims, e, hn, hb, hd, h7, hi, hg⟩ := refGroups_some hr.1
      obtain ⟨c, hc, rfl⟩ := (closes_iff _).1 hr.2
      refine ⟨.ref g1 dims, ?_, nameOf_ref hn hd h7 hi.facts.2.1 hg⟩
      rw [ea, e]
      have := VarLine.ref ha hn hb hc hd h7 hi
      simpa using this
  · cases h

theorem varStart_of {s : Str} {v : VarName} (h : VarLine s v) : ∃ nm, varStart s = some nm ∧ NameOf nm v := by
  cases h with
  | @plain a n b ha hn hb =>
    obtain ⟨c, r, hcr, hc, hw⟩ := FDecl.IsName.facts hn
    have hcw : isWs c = false := by
      cases h : isWs c with
      | false => rfl
      | true => have := ws_nonword h; rw [hw c (by rw [hcr]; simp)] at this; cases this
    have e : lstrip (a ++ n ++ b ++ [']']) = n ++ (b ++ [']']) := by
      rw [List.append_assoc, List.append_assoc, lstrip_blank ha, hcr, List.cons_append, lstrip_cons hcw]
    refine ⟨n, ?_, rfl, hn⟩
    unfold varStart
    simp only [e]
    rw [ident_name hn (blank_nonword hb (by decide))]
    simp only [Option.filter, (closes_iff _).2 ⟨b, hb, rfl⟩, if_true]
  | @ref a n b c raw dims ha hn hb hc hd h7 hi =>
    obtain ⟨c0, r, hcr, hc0, hw⟩ := FDecl.IsName.facts hn
    have hcw : isWs c0 = false := by
      cases h : isWs c0 with
      | false => rfl
      | true => have := ws_nonword h; rw [hw c0 (by rw [hcr]; simp)] at this; cases this
    have e : lstrip (a ++ n ++ b ++ '(' :: (commaJoin raw ++ ')' :: (c ++ [']']))) =
        n ++ b ++ '(' :: (commaJoin raw ++ ')' :: (c ++ [']'])) := by
      rw [List.append_assoc, List.append_assoc, lstrip_blank ha, hcr, List.cons_append, lstrip_cons hcw]
      simp
    obtain ⟨h1, h2⟩ := refGroups_of (r := c ++ [']']) hn hb hd h7 hi
    refine ⟨_, ?_, nameOf_ref hn hd h7 (Indices.facts hi).2.1 h2⟩
    unfold varStart
    simp only [e]
    rw [List.append_assoc, ident_name hn (blank_nonword hb (by decide)), ← List.append_assoc, h1]
    have hcl : closes (b ++ '(' :: (commaJoin raw ++ ')' :: (c ++ [']']))) = false := by
      unfold closes
      rw [lstrip_blank hb, lstrip_cons (by decide)]
      simp
    simp only [Option.filter, hcl, (closes_iff _).2 ⟨c, hc, rfl⟩, if_true]
    rfl

theorem varStart_isSome (s : Str) : (varStart s).isSome = true ↔ ∃ v, VarLine s v := by
  constructor
  · intro h
    obtain ⟨nm, h⟩ := Option.isSome_iff_exists.1 h
    obtain ⟨v, hv, _⟩ := varStart_some h
    exact ⟨v, hv⟩
  · rintro ⟨v, h⟩
    obtain ⟨nm, h, _⟩ := varStart_of h
    rw [h]; rfl

theorem VarLine.head {s : Str} {v : VarName} (h : VarLine s v) : ∃ t, s = '[' :: t := by
  cases h with
  | plain => exact ⟨_, rfl⟩
  | ref => exact ⟨_, rfl⟩

end Ccpp.MF
