import Verif.Props.FortranFile
import Verif.Props.FortranSchemeMain
/-!
# C89: statements
-/
namespace Ccpp.FFile

open Ccpp.FDecl (Str VarRec Blank Declares Attr parseDecl factory cutType dropWord? ddtMatch ddtType intrinsicType itypeName
  characterType lstrip_blank lstrip_cons lstrip_split rstrip_split strip_split rstrip_prefix splitColons)
open Ccpp.FSub (Begins IsKw kw kw_of kw_some kw_none kws kws_iff isContains isContains_begins argTable subStmt endSub endSub_iff
  subStmt_some declared ident ident_name useStmt Header)

theorem kwOf {w : Str} (h : w.head?.any (fun c => !isWs c) = true) : IsKw w := by
  cases w with
  | nil => cases h
  | cons c r => exact ⟨c, r, rfl, by simpa using h⟩

/-- Two different words do not begin the same statement. -/
theorem clash {k w : Str} {ws us : List Str} {s : Str} (h : Begins (k :: ws) s) (h' : Begins (w :: us) s)
    (hk : k.head?.any (fun c => !isWs c) = true) (hw : w.head?.any (fun c => !isWs c) = true) (j : Nat)
    (hj : j ≤ k.length ∧ j ≤ w.length ∧ k.take j ≠ w.take j) : False :=
  hj.2.2 (FSub.Begins.differ (kwOf hk) (kwOf hw) h h' j hj.1 hj.2.1)

theorem begins_append : ∀ {ws : List Str} {p : Str} (r : Str), Begins ws p → Begins ws (p ++ r)
  | [], _, _, _ => trivial
  | w :: ws, p, r, h => by
    obtain ⟨b, v, q, rfl, hb, hv, hq⟩ := h
    exact ⟨b, v, q ++ r, by simp [List.append_assoc], hb, hv, begins_append r hq⟩

theorem begins_blank {ws : List Str} {p a : Str} (ha : Blank a) (hw : ws ≠ []) (h : Begins ws p) : Begins ws (a ++ p) := by
  cases ws with
  | nil => exact absurd rfl hw
  | cons w ws =>
    obtain ⟨b, v, q, rfl, hb, hv, hq⟩ := h
    refine ⟨a ++ b, v, q, by simp [List.append_assoc], ?_, hv, hq⟩
    intro c hc
    rcases List.mem_append.1 hc with hc | hc
    · exact ha c hc
    · exact hb c hc

theorem begins_prefix {ws : List Str} {p s : Str} (hp : p <+: s) (h : Begins ws p) : Begins ws s := by
  obtain ⟨r, rfl⟩ := hp
  exact begins_append r h

theorem begins_strip {ws : List Str} {s : Str} (hw : ws ≠ []) (h : Begins ws (strip s)) : Begins ws s := by
  obtain ⟨a, b, ha, _, e⟩ := strip_split s
  rw [e, List.append_assoc]
  exact begins_blank ha hw (begins_append b h)

theorem begins_lstrip {ws : List Str} {s : Str} (hw : ws ≠ []) (h : Begins ws (lstrip s)) : Begins ws s := by
  obtain ⟨a, ha, e⟩ := lstrip_split s
  rw [e]
  exact begins_blank ha hw h

theorem dropWord_begins {w s r : Str} (h : dropWord? w s = some r) (ws : List Str) (hr : Begins ws r) : Begins (w :: ws) s := by
  obtain ⟨v, e, hv⟩ := FSub.dropWord_len h
  exact ⟨[], v, r, by rw [e]; rfl, (by intro c hc; cases hc), hv, hr⟩

theorem cutType_prefix (l : Str) : cutType l <+: l := by
  unfold cutType
  have h1 : (if '!' ∈ l then rstrip (l.takeWhile (· != '!')) else l) <+: l := by
    split
    · exact (rstrip_prefix _).trans (List.takeWhile_prefix _)
    · exact List.prefix_rfl
  simp only
  generalize (if '!' ∈ l then rstrip (l.takeWhile (· != '!')) else l) = l' at h1
  split
  · split
    · exact (List.take_prefix _ _).trans h1
    · exact (List.take_prefix _ _).trans h1
  · exact (List.take_prefix _ _).trans h1
  · exact (List.take_prefix _ _).trans h1
  · exact h1

/-- What a declaration statement is read from. -/
theorem begins_cut {ws : List Str} {s : Str} (hw : ws ≠ [])
    (h : Begins ws (strip (cutType (if '!' ∈ strip s then rstrip ((strip s).takeWhile (· != '!')) else strip s)))) :
    Begins ws s := by
  refine begins_strip hw (begins_prefix ?_ (begins_strip hw h))
  refine (cutType_prefix _).trans ?_
  split
  · exact (rstrip_prefix _).trans (List.takeWhile_prefix _)
  · exact List.prefix_rfl

theorem ddtMatch_paren {n : Nat} {k : Bool} {t : Str} {x : Str × Nat} (h : ddtMatch n k t = some x) : Begins [['(']] t := by
  unfold ddtMatch at h
  split at h
  · rename_i v hv
    refine begins_lstrip (by simp) ?_
    rw [hv]
    exact ⟨[], ['('], v, rfl, (by intro c hc; cases hc), by decide, trivial⟩
  · cases h

/-- The words of intrinsic types. -/
def intrinsicWords : List Str :=
  ["integer".toList, "real".toList, "logical".toList, "complex".toList, "double".toList, "character".toList]

theorem parseDecl_none {s : Str} (sch logger : Bool) (h1 : ∀ w ∈ intrinsicWords, ¬ Begins [w] s)
    (h2 : ¬ Begins ["type".toList, ['(']] s) (h3 : ¬ Begins ["class".toList, ['(']] s) : parseDecl sch logger s = some [] := by
  unfold parseDecl
  simp only
  have key : ∀ ws, ws ≠ [] → Begins ws (strip (cutType (if '!' ∈ strip s then
      rstrip ((strip s).takeWhile (· != '!')) else strip s))) → Begins ws s := fun ws hw h => begins_cut hw h
  generalize (if '!' ∈ strip s then rstrip ((strip s).takeWhile (· != '!')) else strip s) = l at key
  have dw : ∀ w ∈ intrinsicWords, dropWord? w (strip (cutType l)) = none := by
    intro w hw
    cases hx : dropWord? w (strip (cutType l)) with
    | none => rfl
    | some r => exact absurd (key [w] (by simp) (dropWord_begins hx [] trivial)) (h1 w hw)
  have : factory l = some none := by
    unfold factory
    have i1 : intrinsicType (cutType l) = some none := by
      have : itypeName (strip (cutType l)) = none := by
        unfold itypeName
        rw [dw "integer".toList (by decide), dw "real".toList (by decide), dw "logical".toList (by decide),
          dw "double".toList (by decide), dw "complex".toList (by decide)]
        rfl
      unfold intrinsicType
      simp only [this]
    have i2 : characterType (cutType l) = some none := by
      unfold characterType
      simp only [dw "character".toList (by decide)]
    have i3 : ddtType (cutType l) = none := by
      unfold ddtType
      have e1 : (dropWord? "type".toList (strip (cutType l))).bind (ddtMatch 4 false) = none := by
        cases hx : dropWord? "type".toList (strip (cutType l)) with
        | none => rfl
        | some r =>
          rw [Option.bind_some]
          cases hy : ddtMatch 4 false r with
          | none => rfl
          | some y => exact absurd (key _ (by simp) (dropWord_begins hx _ (ddtMatch_paren hy))) h2
      have e2 : (dropWord? "class".toList (strip (cutType l))).bind (ddtMatch 5 true) = none := by
        cases hx : dropWord? "class".toList (strip (cutType l)) with
        | none => rfl
        | some r =>
          rw [Option.bind_some]
          cases hy : ddtMatch 5 true r with
          | none => rfl
          | some y => exact absurd (key _ (by simp) (dropWord_begins hx _ (ddtMatch_paren hy))) h3
      simp only [e1, e2]
    simp only [i1, i2, i3]
  rw [this]

theorem typeStart_none {s : Str} (h : ¬ Begins ["type".toList] s) : typeStart s = some none := by
  unfold typeStart
  have e1 : dropWord? "type".toList (strip s) = none := by
    cases hx : dropWord? "type".toList (strip s) with
    | none => rfl
    | some r => exact absurd (begins_strip (by simp) (dropWord_begins hx [] trivial)) h
  rw [e1]
  have e2 : ∀ x : Str, x <+: s → ¬ lower ((strip x).take 4) = "type".toList := by
    intro x hx he
    refine h (begins_prefix hx (begins_strip (by simp) ?_))
    exact ⟨[], (strip x).take 4, (strip x).drop 4, by simp, (by intro c hc; cases hc), he, trivial⟩
  simp only [Option.bind_none, Option.isSome_none, Bool.false_eq_true, if_false]
  split
  · rw [if_neg (e2 _ (List.takeWhile_prefix _))]
  · rw [if_neg (e2 _ List.prefix_rfl)]

theorem tableName_isSome (s : Str) : (tableName s).isSome = argTable s := by
  unfold tableName argTable
  generalize lstrip s = x
  match x with
  | [] => rfl
  | [c] => by_cases hc : c = '!' <;> simp_all
  | d :: c :: t =>
    by_cases hd : d = '!'
    · subst hd
      simp only
      by_cases hc : c = '!' ∨ c = '>'
      · rw [if_pos hc]
        have : (c == '!' || c == '>') = true := by simpa using hc
        rw [this, Bool.true_and]
        cases hk : kw "arg_table_".toList ((kw "\\section".toList t).getD t) with
        | none => simp only [hk]; rfl
        | some r => simp only [hk]; cases ident r <;> rfl
      · rw [if_neg hc]
        have : (c == '!' || c == '>') = false := by simpa using hc
        rw [this, Bool.false_and]; rfl
    · simp_all

theorem tableName_none {s : Str} (h : NoMark s) : tableName s = none := by
  cases hx : tableName s with
  | none => rfl
  | some t =>
    have : argTable s = true := by rw [← tableName_isSome, hx]; rfl
    obtain ⟨a, b, e⟩ := FSub.argTable_begins this
    exact absurd e (h a b)

theorem tableName_word {s w : Str} {ws : List Str} (h : Begins (w :: ws) s) (hw : w.head?.any (fun c => !isWs c && c != '!') = true) :
    tableName s = none := by
  cases hx : tableName s with
  | none => rfl
  | some t =>
    have : argTable s = true := by rw [← tableName_isSome, hx]; rfl
    have hb := FSub.argTable_bang this
    cases w with
    | nil => cases hw
    | cons c r =>
      simp only [List.head?_cons, Option.any_some, Bool.and_eq_true, bne_iff_ne, ne_eq] at hw
      exact (clash h hb (by simpa using hw.1) (by decide) 1 ⟨by simp, by simp, by simpa using hw.2⟩).elim

theorem marks_name {s n : Str} (h : Marks s n) : tableName s = some n ∧ Begins [['!']] s := by
  obtain ⟨b, c, x, b', v, r, rfl, hb, hc, hx, hb', hv, hn, hr⟩ := h
  refine ⟨?_, b, ['!'], _, by simp only [List.append_assoc]; rfl, hb, by decide, trivial⟩
  have hk : kw "arg_table_".toList (b' ++ v ++ (n ++ r)) = some (n ++ r) := kw_of hb' hv ⟨_, _, rfl, by decide⟩
  have hs : (kw "\\section".toList (x ++ (b' ++ v ++ (n ++ r)))).getD (x ++ (b' ++ v ++ (n ++ r))) =
      b' ++ v ++ (n ++ r) := by
    rcases hx with rfl | ⟨a, w, rfl, ha, hw⟩
    · have : kw "\\section".toList (b' ++ v ++ (n ++ r)) = none := kw_none fun hm =>
        clash (show Begins ["arg_table_".toList] _ from ⟨b', v, _, rfl, hb', hv, trivial⟩) hm (by decide) (by decide) 1
          (by decide)
      rw [List.nil_append, this]
      rfl
    · rw [kw_of ha hw ⟨_, _, rfl, by decide⟩]
      rfl
  unfold tableName
  rw [lstrip_blank hb, lstrip_cons (by decide)]
  simp only
  rw [hs, hk, if_pos hc]
  simp only
  rw [ident_name hn hr]
  rfl

theorem lstrip_gap {g n r : Str} (hg : Blank g) (hne : g ≠ []) (hn : Chk.IsName n) :
    ∃ c t, g ++ (n ++ r) = c :: t ∧ isWs c = true ∧ lstrip t = n ++ r := by
  cases g with
  | nil => exact absurd rfl hne
  | cons c g =>
    refine ⟨c, g ++ (n ++ r), rfl, hg c (by simp), ?_⟩
    rw [lstrip_blank fun x hx => hg x (by simp [hx])]
    obtain ⟨d, t, rfl, hd, hw⟩ := hn
    rw [List.cons_append, lstrip_cons]
    have := FDecl.IsName.facts ⟨d, t, rfl, hd, hw⟩
    obtain ⟨c', r', e, _, hw'⟩ := this
    cases e
    have := hw' d (by simp)
    cases hx : isWs d with
    | false => rfl
    | true =>
      exfalso
      unfold isWs at hx
      simp only [Bool.or_eq_true, beq_iff_eq] at hx
      rcases hx with ((((rfl | rfl) | rfl) | rfl) | rfl) | rfl <;> revert hd <;> decide

theorem starts_unit {w s n : Str} (hw : w.head?.any (fun c => !isWs c) = true) (h : Starts w s n) :
    unitStart w s = some n ∧ Begins [w] s := by
  obtain ⟨b, v, g, r, rfl, hb, hv, hg, hne, hn, hr⟩ := h
  refine ⟨?_, b, v, _, rfl, hb, hv, trivial⟩
  unfold unitStart
  rw [kw_of hb hv (kwOf hw)]
  obtain ⟨c, t, e, hc, ht⟩ := lstrip_gap (r := r) hg hne hn
  rw [e]
  simp only
  rw [if_pos hc, ht, ident_name hn hr]
  rfl

theorem unitStart_none {w s : Str} (h : ¬ Begins [w] s) : unitStart w s = none := by
  unfold unitStart
  rw [kw_none h]

theorem unitEnd_none {w s : Str} (h : ¬ Begins ["end".toList, w] s) : unitEnd w s = none := by
  unfold unitEnd
  cases hx : kw "end".toList s with
  | none => rfl
  | some r =>
    rw [Option.bind_some]
    cases hy : kw w r with
    | none => rfl
    | some q =>
      obtain ⟨b, v, rfl, hb, hv⟩ := kw_some hx
      obtain ⟨b', v', rfl, hb', hv'⟩ := kw_some hy
      exact absurd ⟨b, v, _, rfl, hb, hv, b', v', q, rfl, hb', hv', trivial⟩ h

theorem endsAs_end {s n : Str} (h : EndsAs s n) :
    unitEnd "module".toList s = some (some n) ∧ Begins ["end".toList, "module".toList] s := by
  obtain ⟨b, v, b', v', g, r, rfl, hb, hv, hb', hv', hg, hne, hn, hr⟩ := h
  refine ⟨?_, b, v, _, rfl, hb, hv, b', v', _, rfl, hb', hv', trivial⟩
  unfold unitEnd
  rw [kw_of hb hv ⟨_, _, rfl, by decide⟩, Option.bind_some, kw_of hb' hv' ⟨_, _, rfl, by decide⟩]
  obtain ⟨c, t, e, hc, ht⟩ := lstrip_gap (r := r) hg hne hn
  rw [e]
  simp only
  rw [if_pos hc, ht, ident_name hn hr]
  rfl

theorem isContains_none {s : Str} (h : ¬ Begins ["contains".toList] s) (i : Bool) : isContains s i = false := by
  cases hx : isContains s i with
  | false => rfl
  | true => exact absurd (isContains_begins hx) h

theorem endType_iff (s : Str) : endType s = true ↔ TypeEnds s := by
  have : endType s = (kws ["end".toList, "type".toList] s).isSome := by
    unfold endType
    rw [kws]
    cases kw "end".toList s with
    | none => rfl
    | some r =>
      simp only [Option.bind_some, kws]
      cases kw "type".toList r <;> rfl
  rw [this]
  exact kws_iff _ (by
    intro w hw
    simp only [List.mem_cons, List.not_mem_nil, or_false] at hw
    rcases hw with rfl | rfl <;> exact ⟨_, _, rfl, by decide⟩) s

/-- A statement that is no landmark of a specification part. -/
structure Neutral (s : Str) : Prop where
  ty : typeStart s = some none
  tn : tableName s = none
  ue : unitEnd "module".toList s = none
  ct : ∀ i, isContains s i = false
  hd : (lstrip s).head? ≠ none

theorem head_of {s : Str} (h : ¬ Blank s) : (lstrip s).head? ≠ none := by
  intro e
  exact h (FSub.lstrip_nil (List.head?_eq_none_iff.1 e))

theorem Idle.neutral {s : Str} (h : Idle s) : Neutral s where
  ty := typeStart_none (h.words _ (by decide))
  tn := tableName_none h.marker
  ue := unitEnd_none h.endmod
  ct := isContains_none h.contains
  hd := head_of h.text

theorem Idle.declare {s : Str} (h : Idle s) (logger : Bool) (vars : List VarRec) : declare logger vars s = some vars := by
  unfold FFile.declare
  cases hx : (lstrip s).head? with
  | none => exact absurd hx (head_of h.text)
  | some c =>
    simp only
    split
    · rfl
    · split
      · rfl
      · rw [parseDecl_none false logger]
        · rfl
        · intro w hw
          refine h.words w ?_
          revert w
          decide
        · exact fun hb => h.words "type".toList (by decide) (FSub.Begins.head hb)
        · exact fun hb => h.words "class".toList (by decide) (FSub.Begins.head hb)

theorem not_blank_begins {w : Str} {ws : List Str} {s : Str} (h : Begins (w :: ws) s) (hw : w.head?.any (fun c => !isWs c) = true) :
    ¬ Blank s := by
  obtain ⟨b, v, r, rfl, _, hv, _⟩ := h
  intro hb
  cases w with
  | nil => cases hw
  | cons c w =>
    cases v with
    | nil => cases hv
    | cons d v =>
      rw [FDecl.lower_cons] at hv
      injection hv with h1 _
      have := hb d (by simp)
      rw [← FDecl.toLower_ws, h1] at this
      simp [this] at hw

theorem typeText_word {t : Str} {m : FDecl.TypeMeaning} (ht : FDecl.TypeText t m) :
    (∃ w r, t = w ++ r ∧ lower w ∈ intrinsicWords) ∨
    ∃ w g a n b, t = w ++ g ++ '(' :: (a ++ n ++ b ++ [')']) ∧ (lower w = "type".toList ∨ lower w = "class".toList) ∧
      Blank g ∧ Blank a ∧ Chk.IsName n := by
  have iw : ∀ {w}, FDecl.IntrinsicWord w → ∃ v r, w = v ++ r ∧ lower v ∈ intrinsicWords := by
    intro w hw
    cases hw with
    | one h =>
      refine ⟨w, [], by simp, ?_⟩
      simp only [List.mem_cons, List.not_mem_nil, or_false] at h
      unfold intrinsicWords
      rcases h with h | h | h | h <;> rw [h] <;> decide
    | two h hb hp => exact ⟨_, _, List.append_assoc .., by rw [h]; decide⟩
  cases ht with
  | plain hw => exact .inl (iw hw)
  | kind hw hg hs hk =>
    obtain ⟨v, r, rfl, hv⟩ := iw hw
    exact .inl ⟨v, _, by simp only [List.append_assoc]; rfl, hv⟩
  | character hw => exact .inl ⟨_, _, List.append_assoc .., by rw [hw]; decide⟩
  | derived hw hg ha hn hb => exact .inr ⟨_, _, _, _, _, rfl, hw, hg, ha, hn⟩

theorem letter_not_ws {c : Char} (h : isLetter c = true) : isWs c = false := by
  cases hx : isWs c with
  | false => rfl
  | true =>
    exfalso
    unfold isWs at hx
    simp only [Bool.or_eq_true, beq_iff_eq] at hx
    rcases hx with ((((rfl | rfl) | rfl) | rfl) | rfl) | rfl <;> revert h <;> decide

theorem typeStart_decl {ind t tail : Str} {m : FDecl.TypeMeaning} (hi : Blank ind) (ht : FDecl.TypeText t m) :
    typeStart (ind ++ t ++ tail) = some none := by
  have hs : strip (ind ++ t ++ tail) = t ++ rstrip tail := by
    obtain ⟨tt, nt⟩ := ht.tight
    rw [List.append_assoc, FDecl.strip_blank_left hi, FDecl.strip_append tt nt]
  have other : ∀ w r, t = w ++ r → (∃ c d, lower w = c :: d ∧ c ≠ 't' ∧ isWs c = false) →
      typeStart (ind ++ t ++ tail) = some none := by
    rintro w r rfl ⟨c, d, e, hc, hc'⟩
    refine typeStart_none fun hb => ?_
    refine clash hb (ws := []) (us := []) (w := c :: d) ⟨ind, w, _, by
      simp only [List.append_assoc]; rfl, hi, e, trivial⟩ (by decide) (by simp [hc']) 1 ⟨by simp, by simp, ?_⟩
    simpa using fun h => hc h.symm
  rcases typeText_word ht with ⟨w, r, e, hw⟩ | ⟨w, g, a, n, b, e, hw, hg, ha, hn⟩
  · refine other w r e ?_
    have : ∀ x ∈ intrinsicWords, ∃ c d, x = c :: d ∧ c ≠ 't' ∧ isWs c = false := by
      intro x hx
      simp only [intrinsicWords, List.mem_cons, List.not_mem_nil, or_false] at hx
      rcases hx with rfl | rfl | rfl | rfl | rfl | rfl <;> exact ⟨_, _, rfl, by decide, by decide⟩
    exact this _ hw
  · rcases hw with hw | hw
    · subst e
      unfold typeStart
      rw [if_pos]
      rw [hs]
      have e1 : dropWord? "type".toList (w ++ g ++ '(' :: (a ++ n ++ b ++ [')']) ++ rstrip tail) =
          some (g ++ '(' :: (a ++ (n ++ (b ++ ')' :: rstrip tail)))) := by
        have := FDecl.dropWord_match hw (g ++ '(' :: (a ++ (n ++ (b ++ ')' :: rstrip tail))))
        rw [← this]
        simp [List.append_assoc]
      rw [e1, Option.bind_some]
      unfold ddtMatch
      rw [lstrip_blank hg, lstrip_cons (by decide)]
      simp only
      rw [lstrip_blank ha]
      obtain ⟨c, r, rfl, hc, hwd⟩ := FDecl.IsName.facts hn
      rw [List.cons_append, lstrip_cons (letter_not_ws hc)]
      simp only
      rw [if_pos hc]
      split <;> rfl
    · refine other w _ (by rw [e, List.append_assoc]) ⟨'c', "lass".toList, hw, by decide, by decide⟩

theorem DeclaresVars.neutral {s : Str} {vs : List VarRec} (h : DeclaresVars s vs) : Neutral s := by
  cases h with
  | mk h hno =>
    obtain ⟨w, hw, hb⟩ := FSub.Declares.word h
    have hw1 : w.head?.any (fun c => !isWs c && c != '!') = true := by
      clear hb; revert w; decide
    have hw2 : w.head?.any (fun c => !isWs c) = true := by
      clear hb; revert w; decide
    refine ⟨?_, tableName_word hb hw1, unitEnd_none (FSub.Declares.not_begins h (by decide) _),
      isContains_none (FSub.Declares.not_begins h (by decide) _), head_of (not_blank_begins hb hw2)⟩
    have key : ∀ {ind t tail s : Str} {m}, s = ind ++ (t ++ tail) → Blank ind → FDecl.TypeText t m →
        typeStart s = some none := by
      rintro ind t tail s m rfl hi ht
      rw [← List.append_assoc]
      exact typeStart_decl hi ht
    cases h with
    | mk hi ht => exact key (by simp only [List.append_assoc]; rfl) hi ht
    | short hi ht => exact key (by simp only [List.append_assoc]; rfl) hi ht

theorem DeclaresVars.facts {s : Str} {vs : List VarRec} (h : DeclaresVars s vs) :
    endType s = false ∧ ∀ logger vars, declare logger vars s = addVars vars vs := by
  have hn := h.neutral
  cases h with
  | mk h hno =>
    refine ⟨Bool.eq_false_iff.2 fun hh => FSub.Declares.not_begins h (by decide) _ ((endType_iff s).1 hh), ?_⟩
    intro logger vars
    unfold FFile.declare
    cases hx : (lstrip s).head? with
    | none => exact absurd hx hn.hd
    | some c =>
      simp only
      have hc : ¬ c = '!' := by
        rintro rfl
        obtain ⟨b, hb, e⟩ := lstrip_split s
        cases hl : lstrip s with
        | nil => rw [hl] at hx; cases hx
        | cons d t =>
          rw [hl] at hx
          injection hx with hx
          subst hx
          exact FSub.Declares.not_bang h ⟨b, ['!'], t, by rw [e, hl]; simp, hb, by decide, trivial⟩
      have hu : useStmt s = false := Bool.eq_false_iff.2 fun hh =>
        (FSub.useStmt_begins hh).elim (FSub.Declares.not_begins h (by decide) _) (FSub.Declares.not_begins h (by decide) _)
      rw [if_neg hc, hu, if_neg (by simp), FDecl.C59_declaration_partial h false logger (.inr hno)]
      rfl

theorem name_tight {n : Str} (h : Chk.IsName n) : FDecl.Tight n ∧ n ≠ [] ∧ '!' ∉ n ∧ ' ' ∉ n ∧ ':' ∉ n ∧ '(' ∉ n := by
  obtain ⟨c, r, rfl, hc, hw⟩ := FDecl.IsName.facts h
  have nw : ∀ d, isWordC d = false → d ∉ c :: r := fun d hd hm => by simp [hw d hm] at hd
  refine ⟨⟨?_, ?_⟩, by simp, nw _ (by decide), nw _ (by decide), nw _ (by decide), nw _ (by decide)⟩
  · intro d hd
    exact (FDecl.isWordC_facts (hw d (List.mem_of_mem_head? hd))).1
  · intro d hd
    exact (FDecl.isWordC_facts (hw d (List.mem_of_mem_getLast? hd))).1

theorem takeWhile_notin {c : Char} {a : Str} (h : c ∉ a) (b : Str) : (a ++ c :: b).takeWhile (· != c) = a := by
  rw [List.takeWhile_append_of_pos]
  · simp
  · intro x hx
    simp only [bne_iff_ne, ne_eq]
    rintro rfl
    exact h hx

/-- The text of a statement, without the comment. -/
theorem sline {b x r : Str} (hb : Blank b) (hx : FDecl.Tight x) (hbang : '!' ∉ x) (hr : CommentOnly r) :
    (if '!' ∈ b ++ x ++ r then strip ((b ++ x ++ r).takeWhile (· != '!')) else strip (b ++ x ++ r)) = x := by
  have nb : ∀ {b : Str}, Blank b → '!' ∉ b := fun hb hm => by have := hb _ hm; revert this; decide
  rcases hr with hr | ⟨a, y, ha, rfl⟩
  · rw [if_neg, FDecl.strip_core hb hx hr]
    simp only [List.mem_append, not_or]
    exact ⟨⟨nb hb, hbang⟩, nb hr⟩
  · rw [if_pos (by simp), ← List.append_assoc, takeWhile_notin, FDecl.strip_core hb hx ha]
    simp only [List.mem_append, not_or]
    exact ⟨⟨nb hb, hbang⟩, nb ha⟩

theorem begins_cons {w : Str} {ws : List Str} {b v r : Str} (hb : Blank b) (hv : lower v = w)
    (hw : w.head?.any (fun c => !isWs c) = true) (hws : ∀ x ∈ ws, x.head?.any (fun c => !isWs c) = true)
    (h : Begins (w :: ws) (b ++ v ++ r)) : Begins ws r := by
  have h1 := (kws_iff (w :: ws) (by
    intro x hx
    rcases List.mem_cons.1 hx with rfl | hx
    · exact kwOf hw
    · exact kwOf (hws x hx)) _).2 h
  rw [kws, kw_of hb hv (kwOf hw)] at h1
  exact (kws_iff ws (fun x hx => kwOf (hws x hx)) _).1 h1

theorem not_paren {g t : Str} {c : Char} (hg : Blank g) (hc : isWs c = false) (h : c ≠ '(') : ¬ Begins [['(']] (g ++ c :: t) := by
  intro hb
  have h1 := (kws_iff [['(']] (by
    intro x hx
    rw [List.mem_singleton.1 hx]
    exact ⟨_, _, rfl, by decide⟩) _).2 hb
  rw [kws, kw, lstrip_blank hg, lstrip_cons hc] at h1
  have : dropWord? ['('] (c :: t) = none := by
    cases hx : dropWord? ['('] (c :: t) with
    | none => rfl
    | some r =>
      obtain ⟨v, e, hv⟩ := FSub.dropWord_len hx
      cases v with
      | nil => cases hv
      | cons d v =>
        cases v with
        | cons =>
          rw [FDecl.lower_cons, FDecl.lower_cons] at hv
          simp at hv
        | nil =>
          injection e with e1 e2
          subst e1
          exfalso
          rw [FDecl.lower_cons] at hv
          injection hv with hv _
          exact h ((FDecl.toLower_eq '(' (by decide) c).1 hv)
  rw [this] at h1
  cases h1

theorem word_tight {v x : Str} (hv : lower v = "type".toList) (hx : FDecl.Tight x) (hne : x ≠ []) (m : Str) :
    FDecl.Tight (v ++ (m ++ x)) := by
  constructor
  · intro d hd
    cases v with
    | nil => cases hv
    | cons c v =>
      injection hd with hd
      subst hd
      rw [FDecl.lower_cons] at hv
      injection hv with h1 _
      rw [← FDecl.toLower_ws, h1]
      decide
  · intro d hd
    refine hx.2 d ?_
    rw [List.getLast?_append, List.getLast?_append] at hd
    rw [List.getLast?_eq_some_getLast hne] at hd ⊢
    simpa using hd

theorem not_infix_word {v m : Str} (hv : ':' ∉ v) (h : ¬ [':', ':'] <:+: m) : ¬ [':', ':'] <:+: v ++ m := by
  induction v with
  | nil => exact h
  | cons c v ih =>
    simp only [List.mem_cons, not_or] at hv
    intro hi
    rw [List.cons_append, List.infix_cons_iff] at hi
    rcases hi with hi | hi
    · obtain ⟨t, e⟩ := hi
      injection e with e _
      exact hv.1 e
    · exact ih hv.2 hi

/-- The first statement of a type. -/
theorem TypeStarts.facts {s n : Str} (h : TypeStarts s n) :
    typeStart s = some (some n) ∧ tableName s = none ∧ unitEnd "module".toList s = none ∧ (∀ i, isContains s i = false) ∧
    endType s = false ∧ ∀ logger vars, declare logger vars s = some vars := by
  have hparen : ¬ Begins ["type".toList, ['(']] s := by
    intro hb
    cases h with
    | plain hi hv hg hn hr =>
      rename_i b v g r
      have := begins_cons hi hv (by decide) (by decide) hb
      obtain ⟨c, t, rfl, hc, hw⟩ := FDecl.IsName.facts hn
      refine not_paren (g := ' ' :: g) (c := c) (t := t ++ r) ?_ (letter_not_ws hc) ?_ ?_
      · intro x hx
        rcases List.mem_cons.1 hx with rfl | hx
        · decide
        · exact hg x hx
      · rintro rfl
        revert hc; decide
      · simpa only [List.append_assoc, List.cons_append] using this
    | attrs hi hv hm hb' hc hg hn hr =>
      rename_i b v m g r
      have := begins_cons hi hv (by decide) (by decide) hb
      rcases hm with hm | ⟨a, x, ha, rfl⟩
      · refine not_paren (c := ':') (t := ':' :: (g ++ n ++ r)) hm (by decide) (by decide) ?_
        simpa only [List.append_assoc, List.cons_append, List.nil_append] using this
      · refine not_paren (c := ',') (t := x ++ ([':', ':'] ++ (g ++ n ++ r))) ha (by decide) (by decide) ?_
        simpa only [List.append_assoc, List.cons_append, List.nil_append] using this
  have hbeg : Begins ["type".toList] s := by
    cases h with
    | plain hi hv => exact ⟨_, _, _, rfl, hi, hv, trivial⟩
    | attrs hi hv => exact ⟨_, _, _, rfl, hi, hv, trivial⟩
  have hno : ∀ w ∈ intrinsicWords, ¬ Begins [w] s := by
    intro w hw hb
    have : w.take 1 ≠ "type".toList.take 1 ∧ 1 ≤ w.length ∧ w.head?.any (fun c => !isWs c) = true := by
      clear hb; revert w; decide
    exact clash hb hbeg this.2.2 (by decide) 1 ⟨this.2.1, by decide, this.1⟩
  have hend : ∀ ws, ¬ Begins ("end".toList :: ws) s := fun ws hb => clash hb hbeg (by decide) (by decide) 1 (by decide)
  refine ⟨?_, tableName_word hbeg (by decide), unitEnd_none (hend _),
    isContains_none fun hb => clash hb hbeg (by decide) (by decide) 1 (by decide),
    Bool.eq_false_iff.2 fun hh => hend _ ((endType_iff s).1 hh), ?_⟩
  · have hd : ((dropWord? "type".toList (strip s)).bind (ddtMatch 4 false)).isSome = false := by
      cases hx : dropWord? "type".toList (strip s) with
      | none => rfl
      | some r =>
        rw [Option.bind_some]
        cases hy : ddtMatch 4 false r with
        | none => rfl
        | some y => exact absurd (begins_strip (by simp) (dropWord_begins hx _ (ddtMatch_paren hy))) hparen
    unfold typeStart
    rw [hd]
    simp only [Bool.false_eq_true, if_false]
    have len : ∀ {v : Str}, lower v = "type".toList → ∀ x, lower ((v ++ x).take 4) = "type".toList := by
      intro v hv x
      have : v.length = 4 := by
        have := congrArg List.length hv
        simpa [lower] using this
      rw [List.take_append_of_le_length (by omega), List.take_of_length_le (by omega), hv]
    cases h with
    | plain hi hv hg hn hr =>
      rename_i b v g r
      obtain ⟨tn, nn, n1, n2, n3, n4⟩ := name_tight hn
      have nv : ∀ c : Char, c.toLower = c → c ∉ "type".toList → c ∉ v := fun c => FDecl.not_mem_lower hv
      have e : b ++ v ++ (' ' :: g ++ n ++ r) = b ++ (v ++ ((' ' :: g) ++ n)) ++ r := by simp
      have ng : ∀ c, isWs c = false → c ∉ g := fun c hc hm => by rw [hg c hm] at hc; cases hc
      rw [e, sline hi (word_tight hv tn nn _) (by
        simp only [List.mem_append, List.mem_cons, not_or]
        exact ⟨nv _ (by decide) (by decide), ⟨by decide, ng _ (by decide)⟩, n1⟩) hr]
      rw [if_pos (len hv _), FDecl.splitColons_none _ (by
        refine not_infix_word (nv _ (by decide) (by decide)) ?_
        intro hi
        have : ':' ∈ (' ' :: g) ++ n := hi.subset (by simp)
        simp only [List.mem_append, List.mem_cons] at this
        rcases this with (h | h) | h
        · exact absurd h (by decide)
        · exact ng _ (by decide) h
        · exact n3 h)]
      simp only
      rw [if_pos (by simp)]
      simp only
      have dw : (v ++ (' ' :: g ++ n)).dropWhile (· != ' ') = ' ' :: g ++ n := by
        rw [List.dropWhile_append_of_pos]
        · simp
        · intro x hx
          simp only [bne_iff_ne, ne_eq]
          rintro rfl
          exact nv ' ' (by decide) (by decide) hx
      rw [dw]
      have : strip ((' ' :: g ++ n).drop 1) = n := by
        have := FDecl.strip_core hg tn (q := []) (by intro c hc; cases hc)
        simpa using this
      rw [this, if_neg n4]
    | attrs hi hv hm hbang hc hg hn hr =>
      rename_i b v m g r
      obtain ⟨tn, nn, n1, n2, n3, n4⟩ := name_tight hn
      have nv : ∀ c : Char, c.toLower = c → c ∉ "type".toList → c ∉ v := fun c => FDecl.not_mem_lower hv
      have e : b ++ v ++ (m ++ [':', ':'] ++ (g ++ n ++ r)) = b ++ (v ++ ((m ++ ([':', ':'] ++ g)) ++ n)) ++ r := by simp
      have ng : ∀ c, isWs c = false → c ∉ g := fun c hc hm => by rw [hg c hm] at hc; cases hc
      rw [e, sline hi (word_tight hv tn nn _) (by
        simp only [List.mem_append, List.mem_cons, not_or, List.not_mem_nil, not_false_eq_true, and_true]
        exact ⟨nv _ (by decide) (by decide), ⟨hbang, ⟨by decide, by decide⟩, ng _ (by decide)⟩, n1⟩) hr]
      have e2 : v ++ ((m ++ ([':', ':'] ++ g)) ++ n) = (v ++ m) ++ ':' :: ':' :: (g ++ n) := by simp
      rw [if_pos (len hv _), e2, FDecl.splitColons_at _ _ (by
        rw [List.append_assoc]
        exact not_infix_word (nv _ (by decide) (by decide)) hc)]
      simp only
      rw [FDecl.beforeColons_plain _ (by
        intro hi
        have : ':' ∈ g ++ n := hi.subset (by simp)
        rcases List.mem_append.1 this with h | h
        · exact ng _ (by decide) h
        · exact n3 h)]
      have : strip (g ++ n) = n := by
        have := FDecl.strip_core hg tn (q := []) (by intro c hc; cases hc)
        simpa using this
      rw [this, if_neg n4]
  · intro logger vars
    unfold FFile.declare
    cases hx : (lstrip s).head? with
    | none => exact absurd hx (head_of (not_blank_begins hbeg (by decide)))
    | some c =>
      simp only
      split
      · rfl
      · split
        · rfl
        · rw [parseDecl_none false logger hno hparen fun hb => clash hb hbeg (by decide) (by decide) 1 (by decide)]
          rfl

end Ccpp.FFile
