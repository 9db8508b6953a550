import Verif.Props.FortranScheme
/-!
# Proofs for C60: the argument table of a scheme
-/
namespace Ccpp.FSub

open Ccpp.FDecl
open Ccpp.Env (mem_rstrip)

/-! ## Declarations -/

/-- The words at the beginning of a type specification. -/
def typeWords : List Str := ["integer".toList, "real".toList, "logical".toList, "complex".toList,
  "double".toList, "character".toList, "type".toList, "class".toList]

theorem TypeText.word {t : Str} {m : TypeMeaning} (h : TypeText t m) : ∃ w r, t = w ++ r ∧ lower w ∈ typeWords := by
  have iw : ∀ {w}, IntrinsicWord w → ∃ v r, w = v ++ r ∧ lower v ∈ typeWords := by
    intro w hw
    cases hw with
    | one h =>
      refine ⟨w, [], by simp, ?_⟩
      simp only [List.mem_cons, List.not_mem_nil, or_false] at h
      unfold typeWords
      rcases h with h | h | h | h <;> rw [h] <;> decide
    | two h hb hp => exact ⟨_, _, List.append_assoc .., by rw [h]; decide⟩
  cases h with
  | plain hw => exact iw hw
  | kind hw hg hs hk =>
    obtain ⟨v, r, rfl, hv⟩ := iw hw
    exact ⟨v, _, by simp only [List.append_assoc]; rfl, hv⟩
  | character hw => exact ⟨_, _, List.append_assoc .., by rw [hw]; decide⟩
  | derived hw => exact ⟨_, _, List.append_assoc .., by rcases hw with hw | hw <;> rw [hw] <;> decide⟩

theorem Declares.word {s : Str} {m : TypeMeaning} {attrs : List Attr} {vars : List (Str × Option Str)}
    (h : Declares s m attrs vars) : ∃ w ∈ typeWords, Begins [w] s := by
  cases h with
  | mk hi ht =>
    obtain ⟨w, r, rfl, hw⟩ := TypeText.word ht
    exact ⟨_, hw, _, w, _, by simp only [List.append_assoc]; rfl, hi, rfl, trivial⟩
  | short hi ht =>
    obtain ⟨w, r, rfl, hw⟩ := TypeText.word ht
    exact ⟨_, hw, _, w, _, by simp only [List.append_assoc]; rfl, hi, rfl, trivial⟩

theorem typeWords_differ : ∀ k ∈ ["subroutine".toList, "recursive".toList, "pure".toList, "elemental".toList,
    "end".toList, "contains".toList, "use".toList], ∀ w ∈ typeWords, w.take 3 ≠ k.take 3 ∧ 3 ≤ w.length ∧ 3 ≤ k.length ∧
    (∃ c, k.head? = some c ∧ isWs c = false) ∧ ∃ c, w.head? = some c ∧ isWs c = false := by
  have : ∀ k ∈ ["subroutine".toList, "recursive".toList, "pure".toList, "elemental".toList,
    "end".toList, "contains".toList, "use".toList], ∀ w ∈ typeWords, w.take 3 ≠ k.take 3 ∧ 3 ≤ w.length ∧ 3 ≤ k.length ∧
    k.head?.any (fun c => isWs c == false) = true ∧ w.head?.any (fun c => isWs c == false) = true := by decide
  intro k hk w hw
  obtain ⟨h1, h2, h3, h4, h5⟩ := this k hk w hw
  have conv : ∀ x : Option Char, x.any (fun c => isWs c == false) = true → ∃ c, x = some c ∧ isWs c = false := by
    intro x hx
    cases x with
    | none => cases hx
    | some c => exact ⟨c, rfl, by simpa using hx⟩
  exact ⟨h1, h2, h3, conv _ h4, conv _ h5⟩

theorem isKw_of_head {w : Str} {c : Char} (h : w.head? = some c) (hc : isWs c = false) : IsKw w := by
  cases w with
  | nil => cases h
  | cons d r => injection h with h; subst h; exact ⟨_, _, rfl, hc⟩

theorem Declares.not_begins {s : Str} {m : TypeMeaning} {attrs : List Attr} {vars : List (Str × Option Str)}
    (h : Declares s m attrs vars) {k : Str} (hk : k ∈ ["subroutine".toList, "recursive".toList, "pure".toList,
      "elemental".toList, "end".toList, "contains".toList, "use".toList]) (ws : List Str) : ¬ Begins (k :: ws) s := by
  intro hb
  obtain ⟨w, hw, hbw⟩ := Declares.word h
  obtain ⟨h1, h2, h3, ⟨c, hc, hc'⟩, d, hd, hd'⟩ := typeWords_differ k hk w hw
  exact h1 (Begins.differ (isKw_of_head hd hd') (isKw_of_head hc hc') hbw hb 3 h2 h3)

theorem Declares.not_bang {s : Str} {m : TypeMeaning} {attrs : List Attr} {vars : List (Str × Option Str)}
    (h : Declares s m attrs vars) : ¬ Begins [['!']] s := by
  intro hb
  obtain ⟨w, hw, hbw⟩ := Declares.word h
  obtain ⟨_, _, _, _, d, hd, hd'⟩ := typeWords_differ "end".toList (by decide) w hw
  have := Begins.differ (isKw_of_head hd hd') ⟨'!', [], rfl, by decide⟩ hbw hb 1
    (by cases w with
        | nil => cases hd
        | cons => simp) (by decide)
  have hne : ∀ w ∈ typeWords, w.take 1 ≠ ['!'].take 1 := by decide
  exact hne w hw this

theorem Declares.dummy {s : Str} {m : TypeMeaning} {attrs : List Attr} {vars : List (Str × Option Str)}
    (h : Declares s m attrs vars) (hi : ∃ v, Attr.intent v ∈ attrs) : dummyStmt s = true := by
  rw [dummyStmt_iff]
  obtain ⟨v, hv⟩ := hi
  cases h with
  | short => cases hv
  | mk _ _ _ has _ _ _ _ _ =>
    rename_i ind t gap tail as es _ _ _ _ _ _ _ _
    obtain ⟨p, hp, e⟩ := List.mem_map.1 hv
    have ha := has p hp
    rw [e] at ha
    obtain ⟨x, y, rfl⟩ := List.append_of_mem hp
    generalize hx : p.1 = px at ha
    cases ha with
    | intent hp hw hg ha hvv hne hb hq =>
      rename_i q1 w g a v b q
      let R := a ++ v ++ b ++ [')'] ++ q ++ y.flatMap (fun p => ',' :: p.1) ++ [':', ':'] ++
          commaJoin (es.map (·.1)) ++ tail
      refine ⟨ind ++ t ++ gap ++ x.flatMap (fun p => ',' :: p.1), q1 ++ w ++ (g ++ ['('] ++ R), ?_,
        q1, w, g ++ ['('] ++ R, rfl, hp, hw, g, ['('], R, rfl, hg, by decide, trivial⟩
      simp [R, List.flatMap_append, List.flatMap_cons, hx, List.append_assoc]

/-- An argument declaration enters its variables. -/
theorem arg_step {s : Str} {m : TypeMeaning} {attrs : List Attr} {vars : List (Str × Option Str)}
    (h : Declares s m attrs vars) (hi : ∃ v, Attr.intent v ∈ attrs) (table : Str) (logger : Bool) (st : St)
    (hp : Plain st) (hpre : st.inpre = true) (A : Args) (hA : st.args = some A) :
    step table logger st s = (addVars A (declared m attrs vars)).map fun B => .inl { st with args := some B } := by
  obtain ⟨h1, h2⟩ := hp
  have c1 : isContains s st.insub = false :=
    Bool.eq_false_iff.2 fun hh => Declares.not_begins h (by decide) _ (isContains_begins hh)
  have c2 : argTable s = false := Bool.eq_false_iff.2 fun hh => Declares.not_bang h (argTable_bang hh)
  have c3 : endModule s = false :=
    Bool.eq_false_iff.2 fun hh => Declares.not_begins h (by decide) _ (endModule_begins hh)
  have c4 : endSub s = false :=
    Bool.eq_false_iff.2 fun hh => Declares.not_begins h (by decide) _ ((endSub_iff s).1 hh)
  have c5 : useStmt s = false := Bool.eq_false_iff.2 fun hh =>
    (useStmt_begins hh).elim (Declares.not_begins h (by decide) _) (Declares.not_begins h (by decide) _)
  have c6 : subStmt s = none := by
    refine Classical.byContradiction fun hn => ?_
    rcases subStmt_some hn with hb | ⟨p, hp, hb⟩
    · exact Declares.not_begins h (by decide) _ hb
    · refine Declares.not_begins h ?_ _ hb
      simp only [List.mem_cons, List.not_mem_nil, or_false] at hp ⊢
      rcases hp with hp | hp | hp <;> simp [hp]
  have c7 := C59_declaration_partial h true logger (.inl rfl)
  obtain ⟨name, inpre, seen, insub, args⟩ := st
  simp only at h1 h2 hpre hA c1
  subst h1 h2 hpre hA
  unfold step
  simp only [c1, c2, c3, c4, c5, c6, Bool.or_false, Bool.false_eq_true, if_false, if_true]
  cases hl : lstrip s with
  | nil =>
    have hb := lstrip_nil hl
    obtain ⟨w, hw, b, v, r, e, _, hv, _⟩ := Declares.word h
    obtain ⟨_, _, _, _, d, hd, hd'⟩ := typeWords_differ "end".toList (by decide) w hw
    cases v with
    | nil => rw [← hv] at hd; cases hd
    | cons x v =>
      rw [← hv, lower_cons] at hd
      injection hd with hd
      have := hb x (by rw [e]; simp)
      rw [← toLower_ws, hd, hd'] at this
      cases this
  | cons c t =>
    simp only [List.head?_cons]
    have hc : ¬ c = '!' := by
      rintro rfl
      obtain ⟨b, hb, e⟩ := lstrip_split s
      exact Declares.not_bang h ⟨b, ['!'], t, by rw [e, hl]; simp, hb, by decide, trivial⟩
    rw [if_neg hc, if_pos (Declares.dummy h hi), c7]
    show (match addVars A (declared m attrs vars) with | some args => _ | none => _) = _
    cases addVars A (declared m attrs vars) <;> rfl

/-! ## The first statement of the subroutine -/

theorem splitOn_commaJoin (ts : List Str) (hne : ts ≠ []) (h : ∀ t ∈ ts, ',' ∉ t) :
    Chk.splitOn ',' (commaJoin ts) = ts := by
  induction ts with
  | nil => exact absurd rfl hne
  | cons t ts ih =>
    cases ts with
    | nil => exact Chk.splitOn_item _ _ (h t (by simp))
    | cons t' ts =>
      rw [commaJoin_cons (by simp), Chk.splitOn_append _ _ _ (h t (by simp)), ih (by simp) (fun x hx => h x (by simp [hx]))]

theorem strip_rstrip (x : Str) : strip (rstrip x) = strip x := by
  obtain ⟨b, hb, e⟩ := rstrip_split x
  unfold strip
  rw [show rstrip (rstrip x) = rstrip x by
    have := rstrip_blank (s := rstrip x) hb
    rw [← e] at this
    exact this.symm]

theorem strip_lstrip (x : Str) : strip (lstrip x) = strip x := by
  obtain ⟨b, hb, e⟩ := lstrip_split x
  have := strip_blank_left (s := lstrip x) hb
  rw [← e] at this
  exact this.symm

theorem splitOn_left {b : Str} (hb : Blank b) (s : Str) :
    (Chk.splitOn ',' (b ++ s)).map strip = (Chk.splitOn ',' s).map strip := by
  induction b with
  | nil => rfl
  | cons c b ih =>
    have ih := ih fun x hx => hb x (List.mem_cons_of_mem _ hx)
    have hc := hb c List.mem_cons_self
    rw [List.cons_append, Chk.splitOn, if_neg (by rintro rfl; revert hc; decide), ← ih]
    cases h : Chk.splitOn ',' (b ++ s) with
    | nil => exact absurd h (Chk.splitOn_ne_nil _ _)
    | cons t ts =>
      simp only [List.map_cons]
      congr 1
      exact strip_blank_left (a := [c]) (s := t) (by intro x hx; rw [List.mem_singleton.1 hx]; exact hc)

theorem map_strip_mapLast (l : List Str) : (mapLast rstrip l).map strip = l.map strip := by
  induction l with
  | nil => rfl
  | cons x l ih =>
    cases l with
    | nil => simp [mapLast, strip_rstrip]
    | cons y l => rw [mapLast, List.map_cons, ih]; rfl

theorem splitOn_strip (raw : List Str) (hne : raw ≠ []) (h : ∀ t ∈ raw, ',' ∉ t) :
    (Chk.splitOn ',' (strip (commaJoin raw))).map strip = raw.map strip := by
  have e : strip (commaJoin raw) = lstrip (commaJoin (mapLast rstrip raw)) := by
    unfold strip
    rw [rstrip_commaJoin]
  obtain ⟨b, hb, eb⟩ := lstrip_split (commaJoin (mapLast rstrip raw))
  rw [e, ← splitOn_left hb, ← eb, splitOn_commaJoin _ (mapLast_ne hne), map_strip_mapLast]
  intro t ht hm
  obtain ⟨y, hy, rfl | rfl⟩ := mem_mapLast ht
  · exact h _ hy hm
  · exact h _ hy (mem_rstrip hm)

theorem mem_commaJoin {raw : List Str} {t : Str} (h : t ∈ raw) {c : Char} (hc : c ∈ t) : c ∈ commaJoin raw := by
  induction raw with
  | nil => cases h
  | cons x raw ih =>
    cases raw with
    | nil => rw [List.mem_singleton.1 h] at hc; exact hc
    | cons y l =>
      rw [commaJoin_cons (by simp)]
      rcases List.mem_cons.1 h with rfl | h
      · simp [hc]
      · have := ih h
        simp [this]

theorem commaJoin_mem {raw : List Str} {c : Char} (h : c ∈ commaJoin raw) : c = ',' ∨ ∃ t ∈ raw, c ∈ t := by
  induction raw with
  | nil => cases h
  | cons x raw ih =>
    cases raw with
    | nil => exact .inr ⟨x, by simp, h⟩
    | cons y l =>
      rw [commaJoin_cons (by simp), List.mem_append, List.mem_cons] at h
      rcases h with h | h | h
      · exact .inr ⟨x, by simp, h⟩
      · exact .inl h
      · rcases ih h with h | ⟨t, ht, hc⟩
        · exact .inl h
        · exact .inr ⟨t, List.mem_cons_of_mem _ ht, hc⟩

theorem argList_paren {h J rest : Str} (hh : Blank h) (hJ : ')' ∉ J) :
    argList (h ++ '(' :: (J ++ ')' :: rest)) = some (lstrip J) := by
  have e : lstrip (h ++ '(' :: (J ++ ')' :: rest)) = '(' :: (J ++ ')' :: rest) := by
    rw [lstrip_blank hh]
    exact lstrip_cons (by decide)
  obtain ⟨b, hb, eb⟩ := lstrip_split J
  have e2 : lstrip (J ++ ')' :: rest) = lstrip J ++ ')' :: rest := by
    have h1 : J ++ ')' :: rest = b ++ (lstrip J ++ ')' :: rest) := by rw [← List.append_assoc, ← eb]
    rw [h1, lstrip_blank hb]
    cases hl : lstrip J with
    | nil => exact lstrip_cons (by decide)
    | cons c t =>
      have hc : isWs c = false := by
        have := List.head?_dropWhile_not isWs J
        unfold lstrip at hl
        rw [hl] at this
        simpa using this
      exact lstrip_cons hc
  have hJ' : ∀ x ∈ lstrip J, (x != ')') = true := by
    intro x hx
    have : x ∈ J := by rw [eb]; exact List.mem_append_right _ hx
    simp only [bne_iff_ne, ne_eq]
    rintro rfl
    exact hJ this
  unfold argList
  rw [e]
  simp only
  rw [e2, if_pos (by simp), (takeWhile_stop rest hJ' (by decide)).1]

theorem ident_name {n T : Str} (hn : Chk.IsName n) (hT : ∀ c, T.head? = some c → isWordC c = false) :
    ident (n ++ T) = some (n, T) := by
  obtain ⟨c, r, rfl, hc, hw⟩ := IsName.facts hn
  have : ((c :: r) ++ T).takeWhile isWordC = c :: r ∧ ((c :: r) ++ T).dropWhile isWordC = T := by
    cases T with
    | nil =>
      have h1 := (List.takeWhile_append_dropWhile (p := isWordC) (l := c :: r))
      have h2 : (c :: r).dropWhile isWordC = [] := by
        clear h1 hT
        generalize c :: r = l at hw
        induction l with
        | nil => rfl
        | cons x l ih =>
          rw [List.dropWhile_cons_of_pos (hw x List.mem_cons_self)]
          exact ih fun y hy => hw y (List.mem_cons_of_mem _ hy)
      rw [h2, List.append_nil] at h1
      rw [List.append_nil]
      exact ⟨h1, h2⟩
    | cons d T => exact takeWhile_stop T hw (hT d rfl)
  unfold ident
  rw [List.cons_append]
  simp only
  rw [if_pos hc, ← List.cons_append, this.1, this.2]

theorem prefixes_differ : ∀ p ∈ prefixes, IsKw p ∧ 3 ≤ p.length ∧ p.take 3 ≠ "subroutine".toList.take 3 ∧
    ∀ q ∈ prefixes, p ≠ q → p.take 3 ≠ q.take 3 := by
  intro p hp
  have h : ∀ p ∈ prefixes, 3 ≤ p.length ∧ p.take 3 ≠ "subroutine".toList.take 3 ∧
    ∀ q ∈ prefixes, p ≠ q → p.take 3 ≠ q.take 3 := by decide
  refine ⟨?_, h p hp⟩
  unfold prefixes at hp
  simp only [List.mem_cons, List.not_mem_nil, or_false] at hp
  rcases hp with rfl | rfl | rfl <;> exact ⟨_, _, rfl, by decide⟩

/-- A subroutine statement: its name and the text of its argument list. -/
theorem subStmt_eq {ind pre w g name T : Str} (hi : Blank ind)
    (hp : pre = [] ∨ ∃ p b, pre = p ++ b ∧ lower p ∈ ["recursive".toList, "pure".toList, "elemental".toList] ∧
        Blank b ∧ b ≠ [])
    (hw : lower w = "subroutine".toList) (hg : Blank g) (hn : Chk.IsName name)
    (hT : ∀ c, T.head? = some c → isWordC c = false) :
    subStmt (ind ++ pre ++ w ++ g ++ name ++ T) = some (name, argList T) := by
  have hname : lstrip (g ++ name ++ T) = name ++ T := by
    obtain ⟨c, r, rfl, hc, hw⟩ := IsName.facts hn
    rw [List.append_assoc, lstrip_blank hg, List.cons_append]
    exact lstrip_cons (isWordC_facts (hw c List.mem_cons_self)).1
  have tail : ∀ b, Blank b → (match kw "subroutine".toList (b ++ w ++ (g ++ name ++ T)) with
      | none => none
      | some r => (ident (lstrip r)).map fun (n, t) => (n, argList t)) = some (name, argList T) := by
    intro b hb
    rw [kw_of hb hw isKw_sub]
    simp only
    rw [hname, ident_name hn hT]
    rfl
  rcases hp with rfl | ⟨p, b, rfl, hp, hb, _⟩
  · have e : ind ++ [] ++ w ++ g ++ name ++ T = ind ++ w ++ (g ++ name ++ T) := by simp
    rw [e]
    have hbg : Begins ["subroutine".toList] (ind ++ w ++ (g ++ name ++ T)) := ⟨ind, w, _, rfl, hi, hw, trivial⟩
    have hnone : prefixes.findSome? (fun p => kw p (ind ++ w ++ (g ++ name ++ T))) = none := by
      rw [List.findSome?_eq_none_iff]
      intro p hp
      obtain ⟨h1, h2, h3, _⟩ := prefixes_differ p hp
      exact kw_none fun hb => h3 (Begins.differ h1 isKw_sub hb hbg 3 h2 (by decide))
    unfold subStmt
    rw [hnone]
    exact tail ind hi
  · have e : ind ++ (p ++ b) ++ w ++ g ++ name ++ T = ind ++ p ++ (b ++ w ++ (g ++ name ++ T)) := by simp
    rw [e]
    have hpp : lower p ∈ prefixes := hp
    obtain ⟨k1, k2, k3, k4⟩ := prefixes_differ _ hpp
    have hbg : Begins [lower p] (ind ++ p ++ (b ++ w ++ (g ++ name ++ T))) := ⟨ind, p, _, rfl, hi, rfl, trivial⟩
    have hsome : prefixes.findSome? (fun p => kw p (ind ++ p ++ (b ++ w ++ (g ++ name ++ T)))) =
        prefixes.findSome? (fun p => kw p (ind ++ p ++ (b ++ w ++ (g ++ name ++ T)))) := rfl
    have hfs : prefixes.findSome? (fun q => kw q (ind ++ p ++ (b ++ w ++ (g ++ name ++ T)))) =
        some (b ++ w ++ (g ++ name ++ T)) := by
      have one : kw (lower p) (ind ++ p ++ (b ++ w ++ (g ++ name ++ T))) = some (b ++ w ++ (g ++ name ++ T)) :=
        kw_of hi rfl k1
      have two : ∀ q ∈ prefixes, q ≠ lower p → kw q (ind ++ p ++ (b ++ w ++ (g ++ name ++ T))) = none := by
        intro q hq hne
        obtain ⟨h1, h2, h3, h4⟩ := prefixes_differ q hq
        exact kw_none fun hb => h4 _ hpp hne (Begins.differ h1 k1 hb hbg 3 h2 k2)
      have gen : ∀ l : List Str, (∀ q ∈ l, q ∈ prefixes) → lower p ∈ l →
          l.findSome? (fun q => kw q (ind ++ p ++ (b ++ w ++ (g ++ name ++ T)))) =
            some (b ++ w ++ (g ++ name ++ T)) := by
        intro l
        induction l with
        | nil => intro _ h; cases h
        | cons q l ih =>
          intro hl hm
          rw [List.findSome?_cons]
          by_cases hq : q = lower p
          · rw [hq, one]
          · rw [two q (hl q List.mem_cons_self) hq]
            refine ih (fun x hx => hl x (List.mem_cons_of_mem _ hx)) ?_
            rcases List.mem_cons.1 hm with h | h
            · exact absurd h.symm hq
            · exact h
      exact gen prefixes (fun _ h => h) hpp
    unfold subStmt
    rw [hfs]
    exact tail b hb

theorem strip_blank {b : Str} (hb : Blank b) : strip b = [] := by
  have := strip_core hb (x := []) (q := []) ⟨by simp, by simp⟩ blank_nil
  simpa using this

/-- A header gives the name and the arguments. -/
theorem header_sub {s name : Str} {args : List Str} (h : Header s name args) :
    ∃ a, subStmt s = some (name, a) ∧
      dummyArgs a = if (args.map lower).Nodup then some ((args.map lower).map fun a => (a, none)) else none := by
  cases h with
  | mk hi hp hw hg hgn hn hh hne hargs =>
    rename_i ind pre w g hb rest as
    have hJ : ')' ∉ commaJoin (as.map (·.1)) := by
      intro hm
      rcases commaJoin_mem hm with h | ⟨t, ht, hc⟩
      · cases h
      · obtain ⟨a, ha, rfl⟩ := List.mem_map.1 ht
        obtain ⟨p, q, hp, hq, hn, e⟩ := hargs a ha
        rw [e, List.mem_append, List.mem_append] at hc
        rcases hc with (hc | hc) | hc
        · exact ((blank_facts hp).1 _ hc).2 rfl
        · exact ((name_facts hn).2.2.1 _ hc).2 rfl
        · exact ((blank_facts hq).1 _ hc).2 rfl
    have hcomma : ∀ t ∈ as.map (·.1), ',' ∉ t := by
      intro t ht hc
      obtain ⟨a, ha, rfl⟩ := List.mem_map.1 ht
      obtain ⟨p, q, hp, hq, hn, e⟩ := hargs a ha
      rw [e, List.mem_append, List.mem_append] at hc
      rcases hc with (hc | hc) | hc
      · exact (blank_facts hp).2.1 hc
      · exact (name_facts hn).2.2.2.1 hc
      · exact (blank_facts hq).2.1 hc
    have hstrip : (as.map (·.1)).map strip = as.map (·.2) := by
      rw [List.map_map]
      apply List.map_congr_left
      intro a ha
      obtain ⟨p, q, hp, hq, hn, e⟩ := hargs a ha
      show strip a.1 = a.2
      rw [e]
      exact strip_core hp (name_facts hn).2.1 hq
    have hasne : as.map (·.1) ≠ [] := by simpa using hne
    refine ⟨some (lstrip (commaJoin (as.map (·.1)))), ?_, ?_⟩
    · rw [List.append_assoc (ind ++ pre ++ w ++ g ++ name), subStmt_eq hi hp hw hg hn (T := hb ++ '(' :: (commaJoin (as.map (·.1)) ++ ')' :: rest)), argList_paren hh hJ]
      · intro c hc
        cases hb with
        | nil => injection hc with hc; subst hc; decide
        | cons d hb =>
          injection hc with hc; subst hc
          have := hh d List.mem_cons_self
          refine Bool.eq_false_iff.2 fun hwd => ?_
          rw [(isWordC_facts hwd).1] at this
          cases this
    · have hne2 : strip (lstrip (commaJoin (as.map (·.1)))) ≠ [] := by
        rw [strip_lstrip]
        intro h0
        obtain ⟨a, b, ha, hb, e⟩ := strip_split (commaJoin (as.map (·.1)))
        rw [h0, List.append_nil] at e
        obtain ⟨x, l, rfl⟩ := List.exists_cons_of_ne_nil hne
        obtain ⟨p, q, hp, hq, hn, e2⟩ := hargs x List.mem_cons_self
        obtain ⟨c, r, hcr, _, hwc⟩ := IsName.facts hn
        have hm : c ∈ commaJoin ((x :: l).map (·.1)) := by
          refine mem_commaJoin (t := x.1) (by simp) ?_
          rw [e2, hcr]; simp
        rw [e] at hm
        have : isWs c = true := by
          rcases List.mem_append.1 hm with h | h
          · exact ha c h
          · exact hb c h
        rw [(isWordC_facts (hwc c (by rw [hcr]; simp))).1] at this
        cases this
      unfold dummyArgs
      simp only
      rw [if_neg hne2, strip_lstrip]
      have hl : (Chk.splitOn ',' (strip (commaJoin (as.map (·.1))))).map (fun x => lower (strip x)) =
          (as.map (·.2)).map lower := by
        have := splitOn_strip _ hasne hcomma
        rw [hstrip] at this
        rw [← this, List.map_map]
        rfl
      rw [hl]
      have hmem : [] ∉ (as.map (·.2)).map lower := by
        intro hm
        obtain ⟨x, hx, e⟩ := List.mem_map.1 hm
        obtain ⟨a, ha, rfl⟩ := List.mem_map.1 hx
        obtain ⟨p, q, hp, hq, hn, _⟩ := hargs a ha
        have := congrArg List.length e
        rw [lower_length] at this
        exact (name_facts hn).1 (List.eq_nil_of_length_eq_zero this)
      by_cases hnd : ((as.map (·.2)).map lower).Nodup
      · rw [if_neg (fun h => h.elim hmem (fun h => h hnd)), if_pos hnd]
      · rw [if_pos (.inr hnd), if_neg hnd]
  | empty hi hp hw hg hgn hn hh hb =>
    rename_i ind pre w g hb' b rest
    refine ⟨some (lstrip b), ?_, ?_⟩
    · have : ')' ∉ b := fun hm => ((blank_facts hb).1 _ hm).2 rfl
      rw [List.append_assoc (ind ++ pre ++ w ++ g ++ name), subStmt_eq hi hp hw hg hn (T := hb' ++ '(' :: (b ++ ')' :: rest)), argList_paren hh this]
      · intro c hc
        cases hb' with
        | nil => injection hc with hc; subst hc; decide
        | cons d hb =>
          injection hc with hc; subst hc
          have := hh d List.mem_cons_self
          refine Bool.eq_false_iff.2 fun hwd => ?_
          rw [(isWordC_facts hwd).1] at this
          cases this
    · unfold dummyArgs
      simp only
      rw [strip_lstrip, if_pos (strip_blank hb)]
      simp
  | none hi hp hw hg hgn hn hh =>
    rename_i ind pre w g hb'
    refine ⟨Option.none, ?_, ?_⟩
    · rw [subStmt_eq hi hp hw hg hn (T := hb')]
      · have : argList hb' = Option.none := by
          unfold argList
          have : lstrip hb' = [] := by
            have := lstrip_blank (s := []) hh
            rw [List.append_nil] at this
            exact this
          rw [this]
        rw [this]
      · intro c hc
        have := hh c (List.mem_of_mem_head? hc)
        refine Bool.eq_false_iff.2 fun hwd => ?_
        rw [(isWordC_facts hwd).1] at this
        cases this
    · unfold dummyArgs
      simp

theorem Header.begins {s name : Str} {args : List Str} (h : Header s name args) :
    ∃ k ∈ ["subroutine".toList, "recursive".toList, "pure".toList, "elemental".toList], Begins [k] s := by
  have key : ∀ {ind pre w T : Str}, Blank ind → (pre = [] ∨ ∃ p b, pre = p ++ b ∧
      lower p ∈ ["recursive".toList, "pure".toList, "elemental".toList] ∧ Blank b ∧ b ≠ []) →
      lower w = "subroutine".toList → ∃ k ∈ ["subroutine".toList, "recursive".toList, "pure".toList,
        "elemental".toList], Begins [k] (ind ++ pre ++ w ++ T) := by
    intro ind pre w T hi hp hw
    rcases hp with rfl | ⟨p, b, rfl, hp, hb, _⟩
    · exact ⟨_, List.mem_cons_self, ind, w, T, by simp, hi, hw, trivial⟩
    · exact ⟨_, List.mem_cons_of_mem _ hp, ind, p, b ++ w ++ T, by simp, hi, rfl, trivial⟩
  cases h with
  | mk hi hp hw =>
    obtain ⟨k, hk, hb⟩ := key hi hp hw
    exact ⟨k, hk, by simpa only [List.append_assoc] using hb⟩
  | empty hi hp hw =>
    obtain ⟨k, hk, hb⟩ := key hi hp hw
    exact ⟨k, hk, by simpa only [List.append_assoc] using hb⟩
  | none hi hp hw =>
    obtain ⟨k, hk, hb⟩ := key hi hp hw
    exact ⟨k, hk, by simpa only [List.append_assoc] using hb⟩

/-! ## The table -/

theorem addVar_eq (A : Args) (v : VarRec) (hA : (A.map (·.1)).Nodup) :
    addVar A v = if (lower v.name, none) ∈ A then
      some (A.map fun p => if p.1 = lower v.name then (p.1, some v) else p) else none := by
  unfold addVar
  cases hf : A.find? (fun p => p.1 == lower v.name) with
  | none =>
    rw [if_neg]
    intro hm
    have := List.find?_eq_none.1 hf _ hm
    simp at this
  | some q =>
    have hq := List.mem_of_find?_eq_some hf
    have hq1 : q.1 = lower v.name := by simpa using List.find?_some hf
    obtain ⟨a, o⟩ := q
    simp only at hq1
    subst hq1
    cases o with
    | none => rw [if_pos hq]
    | some u =>
      rw [if_neg]
      intro hm
      have aux : ∀ (A : Args), (A.map (·.1)).Nodup → ∀ a x y, (a, x) ∈ A → (a, y) ∈ A → x = y := by
        intro A
        induction A with
        | nil => intro _ a x y h; cases h
        | cons p A ih =>
          intro hnd a x y hx hy
          rw [List.map_cons, List.nodup_cons] at hnd
          rcases List.mem_cons.1 hx with rfl | hx <;> rcases List.mem_cons.1 hy with hy | hy
          · injection hy with _ hy; exact hy.symm
          · exact absurd (List.mem_map_of_mem (f := (·.1)) hy) hnd.1
          · rw [← hy] at hnd; exact absurd (List.mem_map_of_mem (f := (·.1)) hx) hnd.1
          · exact ih hnd.2 a x y hx hy
      have := aux A hA _ _ _ hq hm
      cases this

/-- The declaration of an argument. -/
def decl (ds : List VarRec) (a : Str) : Option VarRec := ds.find? fun v => lower v.name == a

theorem addVars_eq (ds : List VarRec) : ∀ (A : Args), (A.map (·.1)).Nodup →
    ((ds.map fun v => lower v.name).Nodup ∧ (∀ v ∈ ds, (lower v.name, none) ∈ A) →
      addVars A ds = some (A.map fun p => (p.1, match p.2 with
        | some v => some v
        | none => decl ds p.1))) ∧
    (¬ ((ds.map fun v => lower v.name).Nodup ∧ ∀ v ∈ ds, (lower v.name, none) ∈ A) → addVars A ds = none) := by
  induction ds with
  | nil =>
    intro A _
    refine ⟨fun _ => ?_, fun h => absurd ⟨by simp, by simp⟩ h⟩
    unfold addVars decl
    congr 1
    rw [← List.map_id A]
    rw [List.map_map]
    apply List.map_congr_left
    rintro ⟨a, o⟩ _
    cases o <;> rfl
  | cons v ds ih =>
    intro A hA
    have hB : ((A.map fun p => if p.1 = lower v.name then (p.1, some v) else p).map (·.1)) = A.map (·.1) := by
      rw [List.map_map]
      apply List.map_congr_left
      intro p _
      simp only [Function.comp]
      split <;> rfl
    have ih := ih (A.map fun p => if p.1 = lower v.name then (p.1, some v) else p) (by rw [hB]; exact hA)
    have hmem : ∀ a, (a, none) ∈ (A.map fun p => if p.1 = lower v.name then (p.1, some v) else p) ↔
        (a, none) ∈ A ∧ a ≠ lower v.name := by
      intro a
      rw [List.mem_map]
      constructor
      · rintro ⟨⟨b, o⟩, hp, e⟩
        simp only at e
        split at e
        · cases e
        · rename_i hne
          injection e with e1 e2
          subst e1 e2
          exact ⟨hp, hne⟩
      · rintro ⟨h1, h2⟩
        exact ⟨_, h1, if_neg h2⟩
    have hcond : ((ds.map fun v => lower v.name).Nodup ∧ ∀ w ∈ ds, (lower w.name, none) ∈
        (A.map fun p => if p.1 = lower v.name then (p.1, some v) else p)) ∧ (lower v.name, none) ∈ A ↔
        (((v :: ds).map fun v => lower v.name).Nodup ∧ ∀ w ∈ v :: ds, (lower w.name, none) ∈ A) := by
      rw [List.map_cons, List.nodup_cons]
      constructor
      · rintro ⟨⟨h1, h2⟩, h3⟩
        refine ⟨⟨?_, h1⟩, ?_⟩
        · intro hm
          obtain ⟨w, hw, e⟩ := List.mem_map.1 hm
          exact ((hmem _).1 (h2 w hw)).2 e
        · intro w hw
          rcases List.mem_cons.1 hw with rfl | hw
          · exact h3
          · exact ((hmem _).1 (h2 w hw)).1
      · rintro ⟨⟨h1, h2⟩, h3⟩
        refine ⟨⟨h2, fun w hw => (hmem _).2 ⟨h3 w (List.mem_cons_of_mem _ hw), ?_⟩⟩, h3 v List.mem_cons_self⟩
        intro e
        exact h1 (List.mem_map.2 ⟨w, hw, e⟩)
    rw [addVars, addVar_eq A v hA]
    constructor
    · intro h
      obtain ⟨h1, h2⟩ := hcond.2 h
      rw [if_pos h2]
      simp only
      rw [ih.1 h1, List.map_map]
      congr 1
      apply List.map_congr_left
      rintro ⟨a, o⟩ hp
      simp only [Function.comp, decl]
      by_cases ha : a = lower v.name
      · subst ha
        rw [if_pos rfl]
        cases o with
        | none => simp
        | some u =>
          have := addVar_eq A v hA
          rw [if_pos h2] at this
          unfold addVar at this
          exfalso
          have aux : ∀ (A : Args), (A.map (·.1)).Nodup → ∀ a x y, (a, x) ∈ A → (a, y) ∈ A → x = y := by
            intro A
            induction A with
            | nil => intro _ a x y h; cases h
            | cons p A ih =>
              intro hnd a x y hx hy
              rw [List.map_cons, List.nodup_cons] at hnd
              rcases List.mem_cons.1 hx with rfl | hx <;> rcases List.mem_cons.1 hy with hy | hy
              · injection hy with _ hy; exact hy.symm
              · exact absurd (List.mem_map_of_mem (f := (·.1)) hy) hnd.1
              · rw [← hy] at hnd; exact absurd (List.mem_map_of_mem (f := (·.1)) hx) hnd.1
              · exact ih hnd.2 a x y hx hy
          cases aux A hA _ _ _ hp h2
      · rw [if_neg ha]
        cases o with
        | some u => rfl
        | none =>
          simp only [List.find?_cons]
          have : (lower v.name == a) = false := by simpa using fun e : lower v.name = a => ha e.symm
          rw [this]
    · intro h
      by_cases h2 : (lower v.name, none) ∈ A
      · rw [if_pos h2]
        exact ih.2 fun hh => h (hcond.1 ⟨hh, h2⟩)
      · rw [if_neg h2]

theorem complete_some {A : Args} {vs : List (Str × VarRec)} :
    complete A = some vs ↔ A = vs.map fun p => (p.1, some p.2) := by
  induction A generalizing vs with
  | nil => cases vs <;> simp [complete]
  | cons p A ih =>
    obtain ⟨a, o⟩ := p
    cases o with
    | none => cases vs <;> simp [complete]
    | some v =>
      rw [complete, Option.map_eq_some_iff]
      constructor
      · rintro ⟨ws, hw, rfl⟩
        rw [ih.1 hw]; rfl
      · intro h
        cases vs with
        | nil => cases h
        | cons q vs =>
          rw [List.map_cons] at h
          injection h with h1 h2
          injection h1 with h3 h4
          injection h4 with h4
          refine ⟨vs, ih.2 h2, ?_⟩
          rw [h3, h4]

/-! ## The loops -/

/-- The statements that do not leave the loop. -/
def fold (table : Str) (logger : Bool) : St → List Str → Option St
  | st, [] => some st
  | st, s :: r => match step table logger st s with
    | some (.inl st) => fold table logger st r
    | _ => none

/-- A statement inside the subroutine. -/
def Inner (table : Str) (logger : Bool) (s : Str) : Prop :=
  ∀ st : St, st.insub = true → step table logger st s = none ∨
    ∃ st', step table logger st s = some (.inl st') ∧ st'.insub = true

theorem line_fold (table : Str) (logger : Bool) (ss : List Str) (h : ∀ s ∈ ss, Inner table logger s) : ∀ st : St, st.insub = true →
    ∀ r, line table logger st (ss ++ r) = (fold table logger st ss).bind (fun st => line table logger st r) ∧
      ∀ st', fold table logger st ss = some st' → st'.insub = true := by
  induction ss with
  | nil => intro st hst r; exact ⟨rfl, fun st' h => by injection h with h; exact h ▸ hst⟩
  | cons s ss ih =>
    intro st hst r
    have ih := ih fun x hx => h x (List.mem_cons_of_mem _ hx)
    rcases h s List.mem_cons_self st hst with e | ⟨st', e, hst'⟩
    · rw [List.cons_append, line, fold, e]
      exact ⟨rfl, fun st' h => by cases h⟩
    · rw [List.cons_append, line, fold, e]
      exact ih st' hst' r

theorem fold_append (table : Str) (logger : Bool) (a b : List Str) : ∀ st, fold table logger st (a ++ b) =
    (fold table logger st a).bind fun st => fold table logger st b := by
  induction a with
  | nil => intro st; rfl
  | cons s a ih =>
    intro st
    rw [List.cons_append, fold, fold]
    cases step table logger st s with
    | none => rfl
    | some x => cases x with
      | inl st => exact ih st
      | inr => rfl

theorem lines_fold (table : Str) (logger : Bool) (L2 : List (List Str)) (l : List Str) (r : List Str)
    (hl : ∀ s ∈ l, Inner table logger s) (L1 : List (List Str)) : (∀ s ∈ L1.flatten, Inner table logger s) →
    ∀ st : St, st.insub = true → (∀ st1, fold table logger st (L1.flatten ++ l) = some st1 →
      ∃ st' left, line table logger st1 r = some (st', left) ∧ st'.insub = false) →
    lines table logger st (L1 ++ (l ++ r) :: L2) = (fold table logger st (L1.flatten ++ l)).bind fun st =>
      (line table logger st r).map fun x => (x.1, x.2, L2) := by
  induction L1 with
  | nil =>
    intro _ st hst he
    rw [List.nil_append, lines]
    obtain ⟨h1, h2⟩ := line_fold table logger l hl st hst r
    rw [List.flatten_nil, List.nil_append] at he ⊢
    rw [h1]
    cases hf : fold table logger st l with
    | none => rfl
    | some st1 =>
      obtain ⟨st2, left, h3, h4⟩ := he st1 hf
      simp only [Option.bind_some, h3, h4]
      rfl
  | cons l1 L1 ih =>
    intro hL st hst he
    rw [List.flatten_cons] at hL
    have ih := ih fun s hs => hL s (List.mem_append_right _ hs)
    rw [List.cons_append, lines]
    obtain ⟨h1, h2⟩ := line_fold table logger l1 (fun s hs => hL s (List.mem_append_left _ hs)) st hst []
    rw [List.append_nil] at h1
    rw [List.flatten_cons, List.append_assoc, fold_append] at he ⊢
    rw [h1]
    cases hf : fold table logger st l1 with
    | none => rfl
    | some st1 =>
      have hp := h2 _ hf
      rw [hf] at he
      simp only [Option.bind_some, line, hp, if_true]
      exact ih st1 hp he

theorem fold_quiet (table : Str) (logger : Bool) (ss : List Str) (h : ∀ s ∈ ss, Quiet s) : ∀ st, Plain st →
    fold table logger st ss = some st := by
  induction ss with
  | nil => intro st _; rfl
  | cons s ss ih =>
    intro st hst
    rw [fold, (h s List.mem_cons_self).step table logger st hst]
    exact ih (fun x hx => h x (List.mem_cons_of_mem _ hx)) st hst

theorem addVars_append (a b : List VarRec) : ∀ A, addVars A (a ++ b) = (addVars A a).bind fun B => addVars B b := by
  induction a with
  | nil => intro A; rfl
  | cons v a ih =>
    intro A
    rw [List.cons_append, addVars, addVars]
    cases addVar A v with
    | none => rfl
    | some B => exact ih B

theorem fold_body (table : Str) (logger : Bool) (body : List (Str × List VarRec)) (h : ∀ p ∈ body, Body p.1 p.2) :
    ∀ st A, Plain st → st.inpre = true → st.args = some A →
    fold table logger st (body.map (·.1)) =
      (addVars A (body.flatMap (·.2))).map fun B => { st with args := some B } := by
  induction body with
  | nil =>
    intro st A hp hi hA
    obtain ⟨name, inpre, seen, insub, args⟩ := st
    simp only at hA
    subst hA
    rfl
  | cons p body ih =>
    intro st A hp hi hA
    have ih := ih fun q hq => h q (List.mem_cons_of_mem _ hq)
    have hb := h p List.mem_cons_self
    obtain ⟨s, ds⟩ := p
    rw [List.map_cons, List.flatMap_cons, addVars_append, fold]
    cases hb with
    | quiet hq =>
      rw [hq.step table logger st hp]
      exact ih st A hp hi hA
    | arg hd hin =>
      rename_i m attrs vars
      rw [arg_step hd hin table logger st hp hi A hA]
      show _ = Option.map _ ((addVars A (declared m attrs vars)).bind _)
      cases addVars A (declared m attrs vars) with
      | none => rfl
      | some B =>
        simp only [Option.map_some, Option.bind_some]
        rw [ih { st with args := some B } B ⟨hp.1, hp.2⟩ hi rfl]

theorem Ends.step {e : Str} (h : Ends e) (table : Str) (logger : Bool) (st : St) (hin : st.insub = true) :
    ∃ st', FSub.step table logger st e = some (.inl st') ∧
      ((st.inpre = true ∨ st.seen = true) → st'.insub = false ∧ st'.name = st.name ∧ st'.args = st.args) := by
  have c1 : isContains e st.insub = false := Bool.eq_false_iff.2 fun hh =>
    absurd (Begins.differ isKw_end ⟨_, _, rfl, by decide⟩ h (isContains_begins hh) 3 (by decide) (by decide)) (by decide)
  have c2 : argTable e = false := Bool.eq_false_iff.2 fun hh =>
    absurd (Begins.differ isKw_end ⟨_, _, rfl, by decide⟩ h (argTable_bang hh) 1 (by decide) (by decide)) (by decide)
  have c3 : endModule e = false := by
    refine Bool.eq_false_iff.2 fun hh => ?_
    obtain ⟨b, v, r, rfl, hb, hv, hs⟩ := h
    unfold endModule at hh
    rw [kw_of hb hv isKw_end] at hh
    have : kw "module".toList r = none := kw_none fun hm =>
      absurd (Begins.differ isKw_sub ⟨_, _, rfl, by decide⟩ hs hm 3 (by decide) (by decide)) (by decide)
    rw [Option.bind_some, this] at hh
    cases hh
  have c4 : endSub e = true := (endSub_iff e).2 h
  have c5 : subStmt e = none := by
    refine Classical.byContradiction fun hn => ?_
    rcases subStmt_some hn with hb | ⟨p, hp, hb⟩
    · exact absurd (Begins.differ isKw_end isKw_sub h hb 3 (by decide) (by decide)) (by decide)
    · obtain ⟨k1, k2, _, _⟩ := prefixes_differ p hp
      have := Begins.differ isKw_end k1 h hb 3 (by decide) k2
      have hne : ∀ p ∈ prefixes, "end".toList.take 3 ≠ p.take 3 := by decide
      exact hne p hp this
  obtain ⟨name, inpre, seen, insub, args⟩ := st
  simp only at hin c1
  subst hin
  unfold FSub.step
  simp only [c1, c2, c3, c4, c5, Bool.or_false, Bool.false_eq_true, if_false, if_true]
  cases inpre <;> cases seen
  · exact ⟨_, rfl, fun h => by rcases h with h | h <;> cases h⟩
  · exact ⟨_, rfl, fun _ => ⟨rfl, rfl, rfl⟩⟩
  · exact ⟨_, rfl, fun _ => ⟨rfl, rfl, rfl⟩⟩
  · exact ⟨_, rfl, fun _ => ⟨rfl, rfl, rfl⟩⟩

theorem header_step {s name : Str} {args : List Str} (h : Header s name args) (table : Str) (logger : Bool)
    (ht : lower name = lower table) (st : St) (hp : Plain st) :
    step table logger st s = if (args.map lower).Nodup then
      some (.inl { st with name := some name, inpre := true, args := some ((args.map lower).map fun a => (a, none)) })
      else none := by
  obtain ⟨k, hk, hb⟩ := Header.begins h
  obtain ⟨a, h1, h2⟩ := header_sub h
  have kk : ∀ k ∈ ["subroutine".toList, "recursive".toList, "pure".toList, "elemental".toList],
      3 ≤ k.length ∧ k.take 3 ≠ "contains".toList.take 3 ∧ k.take 3 ≠ "end".toList.take 3 ∧ k.take 1 ≠ ['!'] := by decide
  have kw' : IsKw k := by
    simp only [List.mem_cons, List.not_mem_nil, or_false] at hk
    rcases hk with rfl | rfl | rfl | rfl <;> exact ⟨_, _, rfl, by decide⟩
  obtain ⟨k1, k2, k3, k4⟩ := kk k hk
  have c1 : isContains s st.insub = false := Bool.eq_false_iff.2 fun hh =>
    k2 (Begins.differ kw' ⟨_, _, rfl, by decide⟩ hb (isContains_begins hh) 3 k1 (by decide))
  have c2 : argTable s = false := Bool.eq_false_iff.2 fun hh =>
    k4 (Begins.differ kw' ⟨_, _, rfl, by decide⟩ hb (argTable_bang hh) 1 (by omega) (by decide))
  have c3 : endModule s = false := Bool.eq_false_iff.2 fun hh =>
    k3 (Begins.differ kw' isKw_end hb (endModule_begins hh) 3 k1 (by decide))
  obtain ⟨h3, h4⟩ := hp
  obtain ⟨nm, inpre, seen, insub, as⟩ := st
  simp only at h3 h4 c1
  subst h3 h4
  unfold FSub.step
  simp only [c1, c2, c3, h1, h2, Bool.or_false, Bool.false_eq_true, if_false, if_pos ht]
  by_cases hnd : (args.map lower).Nodup
  · simp only [if_pos hnd]
  · simp only [if_neg hnd]

theorem inner_of (table : Str) (logger : Bool) {s : Str} (c2 : argTable s = false) (c3 : endModule s = false)
    (c4 : endSub s = false) : Inner table logger s := by
  intro st h2
  obtain ⟨name, inpre, seen, insub, args⟩ := st
  simp only at h2
  subst h2
  unfold step
  simp only [c2, c3, c4, Bool.false_eq_true, if_false]
  repeat' split
  all_goals first
    | exact .inl rfl
    | exact .inr ⟨_, rfl, rfl⟩

theorem body_inner (table : Str) (logger : Bool) {s : Str} {ds : List VarRec} (h : Body s ds) :
    Inner table logger s := by
  cases h with
  | quiet h =>
    exact inner_of table logger (Bool.eq_false_iff.2 fun hh =>
        Exists.elim (argTable_begins hh) fun a ⟨b, e⟩ => h.marker a b e)
      (Bool.eq_false_iff.2 fun hh => h.endmod (endModule_begins hh))
      (Bool.eq_false_iff.2 fun hh => h.endsub ((endSub_iff s).1 hh))
  | arg hd hin =>
    exact inner_of table logger (Bool.eq_false_iff.2 fun hh => Declares.not_bang hd (argTable_bang hh))
      (Bool.eq_false_iff.2 fun hh => Declares.not_begins hd (by decide) _ (endModule_begins hh))
      (Bool.eq_false_iff.2 fun hh => Declares.not_begins hd (by decide) _ ((endSub_iff s).1 hh))

theorem Inside.facts {s : Str} (h : Inside s) : argTable s = false ∧ endModule s = false ∧ endSub s = false :=
  ⟨Bool.eq_false_iff.2 fun hh => Exists.elim (argTable_begins hh) fun a ⟨b, e⟩ => h.marker a b e,
   Bool.eq_false_iff.2 fun hh => h.endmod (endModule_begins hh),
   Bool.eq_false_iff.2 fun hh => h.endsub ((endSub_iff s).1 hh)⟩

theorem header_inner (table : Str) (logger : Bool) {s name : Str} {args : List Str} (h : Header s name args) :
    Inner table logger s := by
  obtain ⟨k, hk, hb⟩ := Header.begins h
  have kk : ∀ k ∈ ["subroutine".toList, "recursive".toList, "pure".toList, "elemental".toList],
      3 ≤ k.length ∧ k.take 3 ≠ "end".toList.take 3 ∧ k.take 1 ≠ ['!'] := by decide
  have kw' : IsKw k := by
    simp only [List.mem_cons, List.not_mem_nil, or_false] at hk
    rcases hk with rfl | rfl | rfl | rfl <;> exact ⟨_, _, rfl, by decide⟩
  obtain ⟨k1, k3, k4⟩ := kk k hk
  exact inner_of table logger
    (Bool.eq_false_iff.2 fun hh => k4 (Begins.differ kw' ⟨_, _, rfl, by decide⟩ hb (argTable_bang hh) 1 (by omega) (by decide)))
    (Bool.eq_false_iff.2 fun hh => k3 (Begins.differ kw' isKw_end hb (endModule_begins hh) 3 k1 (by decide)))
    (Bool.eq_false_iff.2 fun hh => k3 (Begins.differ kw' isKw_end hb ((endSub_iff s).1 hh) 3 k1 (by decide)))

theorem contains_eq {s : Str} (h : Begins ["contains".toList] s) : isContains s true = true := by
  obtain ⟨b, v, r, rfl, hb, hv, _⟩ := h
  unfold isContains
  have e : strip (b ++ v ++ r) = v ++ rstrip r := by
    rw [List.append_assoc, strip_blank_left hb]
    refine strip_append ?_ ?_
    · exact lower_tight (by rw [hv]; exact tight_of_all (by decide))
    · rintro rfl; cases hv
  rw [e]
  have := kw_of (b := []) (r := rstrip r) blank_nil hv ⟨_, _, rfl, by decide⟩
  rw [List.nil_append] at this
  rw [this]
  rfl

/-- Internal procedures do not change the arguments. -/
theorem fold_internal (table : Str) (logger : Bool) {l : List Str} (h : Internal l) (st : St) (hp : Plain st)
    (hi : st.inpre = true) : ∃ st', fold table logger st l = some st' ∧ st'.insub = true ∧ st'.name = st.name ∧
      st'.args = st.args ∧ (st'.inpre = true ∨ st'.seen = true) := by
  rcases h with rfl | ⟨c, ss, rfl, hc, hin⟩
  · exact ⟨st, rfl, hp.2, rfl, rfl, .inl hi⟩
  · obtain ⟨h1, h2⟩ := hp
    obtain ⟨name, inpre, seen, insub, args⟩ := st
    simp only at h1 h2
    subst h1 h2
    have seenStep : ∀ s, Inside s → ∀ st : St, st.insub = true → (st.seen || isContains s true) = true →
        step table logger st s = some (.inl { st with seen := true, inpre := false }) := by
      intro s hs st h3 h4
      obtain ⟨c2, c3, c4⟩ := hs.facts
      obtain ⟨name, inpre, seen, insub, args⟩ := st
      simp only at h3 h4
      subst h3
      unfold step
      simp only [h4, c2, c3, c4, Bool.false_eq_true, if_false, if_true, Bool.or_true]
      cases subStmt s <;> rfl
    have rest : ∀ ss : List Str, (∀ s ∈ ss, Inside s) → ∀ st : St, st.insub = true → st.seen = true → st.inpre = false →
        fold table logger st ss = some st := by
      intro ss
      induction ss with
      | nil => intros; rfl
      | cons s ss ih =>
        intro hss st h3 h4 h5
        rw [fold, seenStep s (hss s List.mem_cons_self) st h3 (by rw [h4]; rfl)]
        obtain ⟨name, inpre, seen, insub, args⟩ := st
        simp only at h4 h5
        subst h4 h5
        exact ih (fun x hx => hss x (List.mem_cons_of_mem _ hx)) _ h3 rfl rfl
    refine ⟨{ name := name, inpre := false, seen := true, insub := true, args := args }, ?_, rfl, rfl, rfl, .inr rfl⟩
    rw [fold, seenStep c (hin c List.mem_cons_self) ⟨name, inpre, false, true, args⟩ rfl (by simp [contains_eq hc])]
    exact rest ss (fun s hs => hin s (List.mem_cons_of_mem _ hs)) _ rfl rfl rfl

theorem declaredOnce_iff (args : List Str) (ds : List VarRec) : DeclaredOnce args ds ↔
    (args.map lower).Nodup ∧ (ds.map fun v => lower v.name).Nodup ∧ (∀ v ∈ ds, lower v.name ∈ args.map lower) ∧
      ∀ a ∈ args.map lower, ∃ v ∈ ds, lower v.name = a := by
  unfold DeclaredOnce
  constructor
  · rintro ⟨h1, h2⟩
    refine ⟨h1, h2.nodup h1, fun v hv => h2.mem_iff.2 (List.mem_map_of_mem (f := fun v => lower v.name) hv), fun a ha => ?_⟩
    exact List.mem_map.1 (h2.mem_iff.1 ha)
  · rintro ⟨h1, h2, h3, h4⟩
    refine ⟨h1, (List.perm_ext_iff_of_nodup h1 h2).2 fun a => ⟨fun ha => List.mem_map.2 (h4 a ha), fun ha => ?_⟩⟩
    obtain ⟨v, hv, rfl⟩ := List.mem_map.1 ha
    exact h3 v hv

theorem endsModule_eq {e : Str} (h : EndsModule e) : endModule e = true ∧ argTable e = false ∧
    ∀ i, isContains e i = false := by
  have hb : Begins ["end".toList] e := by
    obtain ⟨b, v, b', v', c, r, e, hb, hv, _⟩ := h
    exact ⟨b, v, _, e, hb, hv, trivial⟩
  refine ⟨?_, Bool.eq_false_iff.2 fun hh =>
    absurd (Begins.differ isKw_end ⟨_, _, rfl, by decide⟩ hb (argTable_bang hh) 1 (by decide) (by decide)) (by decide),
    fun i => Bool.eq_false_iff.2 fun hh =>
    absurd (Begins.differ isKw_end ⟨_, _, rfl, by decide⟩ hb (isContains_begins hh) 3 (by decide) (by decide)) (by decide)⟩
  obtain ⟨b, v, b', v', c, r, rfl, hb, hv, hb', hv', hc⟩ := h
  unfold endModule
  rw [kw_of hb hv isKw_end, Option.bind_some, kw_of hb' hv' ⟨_, _, rfl, by decide⟩]
  exact hc

theorem marker_eq {e : Str} (h : Marker e) : argTable e = true ∧ ∀ i, isContains e i = false := by
  have hb : Begins [['!']] e := by
    obtain ⟨b, c, x, b', v, n, r, rfl, hb, _⟩ := h
    exact ⟨b, ['!'], _, by simp only [List.append_assoc]; rfl, hb, by decide, trivial⟩
  refine ⟨?_, fun i => Bool.eq_false_iff.2 fun hh =>
    absurd (Begins.differ ⟨_, _, rfl, by decide⟩ ⟨_, _, rfl, by decide⟩ hb (isContains_begins hh) 1 (by decide) (by decide)) (by decide)⟩
  obtain ⟨b, c, x, b', v, n, r, rfl, hb, hc, hx, hb', hv, hn⟩ := h
  have hk : kw "arg_table_".toList (b' ++ v ++ (n ++ r)) = some (n ++ r) := kw_of hb' hv ⟨_, _, rfl, by decide⟩
  have hs : (kw "\\section".toList (x ++ (b' ++ v ++ (n ++ r)))).getD (x ++ (b' ++ v ++ (n ++ r))) =
      b' ++ v ++ (n ++ r) := by
    rcases hx with rfl | ⟨a, w, rfl, ha, hw⟩
    · have : kw "\\section".toList (b' ++ v ++ (n ++ r)) = none := kw_none fun hm =>
        absurd (Begins.differ ⟨_, _, rfl, by decide⟩ ⟨_, _, rfl, by decide⟩
          (show Begins ["arg_table_".toList] _ from ⟨b', v, _, rfl, hb', hv, trivial⟩) hm 1 (by decide) (by decide)) (by decide)
      rw [List.nil_append, this]
      rfl
    · rw [kw_of ha hw ⟨_, _, rfl, by decide⟩]
      rfl
  unfold argTable
  rw [lstrip_blank hb, lstrip_cons (by decide)]
  simp only
  rw [hs, hk]
  obtain ⟨d, t, rfl, hd, _⟩ := IsName.facts hn
  have : (ident (d :: t ++ r)).isSome = true := by
    unfold ident
    rw [List.cons_append]
    simp only
    rw [if_pos hd]
    rfl
  simp only [this, Bool.and_true]
  rcases hc with rfl | rfl <;> decide

theorem stops_line {e : Str} {r left : List Str} (h : Stops e r left) (table : Str) (logger : Bool) (st : St)
    (hin : st.insub = true) (hi : st.inpre = true ∨ st.seen = true) : ∃ st', line table logger st (e :: r) = some (st', left) ∧
      st'.insub = false ∧ st'.name = st.name ∧ st'.args = st.args := by
  rcases h with ⟨h, rfl, rfl⟩ | ⟨h, rfl⟩ | ⟨h, rfl⟩
  · obtain ⟨st', h1, h2⟩ := h.step table logger st hin
    exact ⟨st', by rw [line, h1]; rfl, h2 hi⟩
  · obtain ⟨h1, h2, h3⟩ := endsModule_eq h
    rw [line]
    unfold step
    simp only [h1, h2, h3, Bool.false_eq_true, if_false, if_true]
    exact ⟨_, rfl, rfl, rfl, rfl⟩
  · obtain ⟨h1, h2⟩ := marker_eq h
    rw [line]
    unfold step
    simp only [h1, h2, if_true]
    exact ⟨_, rfl, rfl, rfl, rfl⟩

/-- **C60** (in part): a scheme subroutine is read as the table of its arguments if, and only if, its
argument list and its declarations with intent name the same variables, each once; otherwise there is an
error. The table has the arguments in the order of the argument list, each with its declaration. -/
theorem C60_scheme_partial {table name header e : List Char} {args : List (List Char)}
    {before internal l r left : List (List Char)}
    {body : List (List Char × List VarRec)} {L1 L2 : List (List (List Char))} (logger : Bool)
    (hlines : L1.flatten ++ l = before ++ header :: (body.map (·.1) ++ internal))
    (hbefore : ∀ s ∈ before, Quiet s) (hheader : Header header name args) (hbody : ∀ p ∈ body, Body p.1 p.2)
    (hinternal : Internal internal) (hend : Stops e r left) (hname : lower name = lower table) :
    (DeclaredOnce args (body.flatMap (·.2)) → ∃ vs,
      parseScheme table logger (L1 ++ (l ++ e :: r) :: L2) = some (some name, vs, left, L2) ∧
      vs.map (·.1) = args.map lower ∧
      ∀ p ∈ vs, p.2 ∈ body.flatMap (·.2) ∧ lower p.2.name = p.1) ∧
    (¬ DeclaredOnce args (body.flatMap (·.2)) →
      parseScheme table logger (L1 ++ (l ++ e :: r) :: L2) = none) := by
  have hp0 : Plain {} := ⟨rfl, rfl⟩
  have hin : ∀ s ∈ L1.flatten ++ l, Inner table logger s := by
    intro s hs
    rw [hlines, List.mem_append, List.mem_cons, List.mem_append] at hs
    rcases hs with hs | rfl | hs | hs
    · exact body_inner table logger (.quiet (hbefore s hs))
    · exact header_inner table logger hheader
    · obtain ⟨p, hp, rfl⟩ := List.mem_map.1 hs
      exact body_inner table logger (hbody p hp)
    · rcases hinternal with rfl | ⟨c, ss, rfl, _, hi⟩
      · cases hs
      · obtain ⟨c2, c3, c4⟩ := (hi s hs).facts
        exact inner_of table logger c2 c3 c4
  have hfold : fold table logger {} (L1.flatten ++ l) = if (args.map lower).Nodup then
      (addVars ((args.map lower).map fun a => (a, none)) (body.flatMap (·.2))).bind fun B =>
        fold table logger { name := some name, inpre := true, args := some B } internal else none := by
    rw [hlines, fold_append, fold_quiet table logger before hbefore {} hp0, Option.bind_some, fold,
      header_step hheader table logger hname {} hp0]
    by_cases hnd : (args.map lower).Nodup
    · rw [if_pos hnd, if_pos hnd]
      simp only
      rw [fold_append, fold_body table logger body hbody _ _ ⟨rfl, rfl⟩ rfl rfl]
      cases addVars ((args.map lower).map fun a => (a, none)) (body.flatMap (·.2)) <;> rfl
    · rw [if_neg hnd, if_neg hnd]
  have hlines2 := lines_fold table logger L2 l (e :: r) (fun s hs => hin s (List.mem_append_right _ hs)) L1
    (fun s hs => hin s (List.mem_append_left _ hs)) {} rfl (by
      intro st1 h1
      rw [hfold] at h1
      split at h1
      · rw [Option.bind_eq_some_iff] at h1
        obtain ⟨B, _, hB⟩ := h1
        obtain ⟨st2, i1, i2, _, _, i5⟩ := fold_internal table logger hinternal
          { name := some name, inpre := true, args := some B } ⟨rfl, rfl⟩ rfl
        rw [i1] at hB
        injection hB with hB
        subst hB
        obtain ⟨st', h3, h4, _⟩ := stops_line hend table logger st2 i2 i5
        exact ⟨st', left, h3, h4⟩
      · cases h1)
  have hkeys : ∀ l : List Str, (l.map fun a => (a, (none : Option VarRec))).map (·.1) = l := by
    intro l
    rw [List.map_map]
    exact List.map_id l
  -- the result of the program
  have hres : parseScheme table logger (L1 ++ (l ++ e :: r) :: L2) = if (args.map lower).Nodup then
      (addVars ((args.map lower).map fun a => (a, none)) (body.flatMap (·.2))).bind fun B =>
        (complete B).map fun vs => (some name, vs, left, L2) else none := by
    unfold parseScheme
    rw [hlines2, hfold]
    by_cases hnd : (args.map lower).Nodup
    · rw [if_pos hnd, if_pos hnd]
      cases addVars ((args.map lower).map fun a => (a, none)) (body.flatMap (·.2)) with
      | none => rfl
      | some B =>
        obtain ⟨st2, i1, i2, i3, i4, i5⟩ := fold_internal table logger hinternal
          { name := some name, inpre := true, args := some B } ⟨rfl, rfl⟩ rfl
        obtain ⟨st', h3, h4, h5, h6⟩ := stops_line hend table logger st2 i2 i5
        simp only [Option.bind_some, Option.map_some, i1, h3, h5, h6, i3, i4]
        cases complete B <;> rfl
    · rw [if_neg hnd, if_neg hnd]
      rfl
  have hmem : ∀ (x : Str), (x, (none : Option VarRec)) ∈ (args.map lower).map (fun a => (a, none)) ↔ x ∈ args.map lower := by
    intro x
    rw [List.mem_map]
    constructor
    · rintro ⟨a, ha, h⟩; injection h with h _; exact h ▸ ha
    · intro h; exact ⟨x, h, rfl⟩
  have hall := addVars_eq (body.flatMap (·.2)) ((args.map lower).map fun a => (a, none))
  rw [hkeys] at hall
  rw [declaredOnce_iff]
  constructor
  · rintro ⟨h1, h2, h3, h4⟩
    rw [if_pos h1, (hall h1).1 ⟨h2, fun v hv => (hmem _).2 (h3 v hv)⟩, Option.bind_some] at hres
    have hdecl : ∀ a ∈ args.map lower, ∃ v, decl (body.flatMap (·.2)) a = some v ∧ v ∈ body.flatMap (·.2) ∧
        lower v.name = a := by
      intro a ha
      obtain ⟨v, hv, e⟩ := h4 a ha
      cases hf : decl (body.flatMap (·.2)) a with
      | none =>
        have := List.find?_eq_none.1 hf v hv
        rw [e] at this
        simp at this
      | some w => exact ⟨w, rfl, List.mem_of_find?_eq_some hf, by simpa using List.find?_some hf⟩
    have hc : ∃ vs, complete (((args.map lower).map fun a => (a, none)).map fun p => (p.1, match p.2 with
        | some v => some v
        | none => decl (body.flatMap (·.2)) p.1)) = some vs ∧ vs.map (·.1) = args.map lower ∧
        ∀ p ∈ vs, p.2 ∈ body.flatMap (·.2) ∧ lower p.2.name = p.1 := by
      generalize args.map lower = as at hdecl
      clear hres hall hkeys hlines2 hfold hmem h3 h4 h1
      induction as with
      | nil => exact ⟨[], rfl, rfl, by simp⟩
      | cons a as ih =>
        obtain ⟨vs, i1, i2, i3⟩ := ih fun x hx => hdecl x (List.mem_cons_of_mem _ hx)
        obtain ⟨v, d1, d2, d3⟩ := hdecl a List.mem_cons_self
        refine ⟨(a, v) :: vs, ?_, by rw [List.map_cons, i2], ?_⟩
        · rw [List.map_cons, List.map_cons]
          simp only
          rw [d1, complete, i1]
          rfl
        · intro p hp
          rcases List.mem_cons.1 hp with rfl | hp
          · exact ⟨d2, d3⟩
          · exact i3 p hp
    obtain ⟨vs, c1, c2, c3⟩ := hc
    refine ⟨vs, ?_, c2, c3⟩
    rw [hres, c1]
    rfl
  · intro hno
    rw [hres]
    by_cases h1 : (args.map lower).Nodup
    · rw [if_pos h1]
      by_cases h2 : (List.map (fun v => lower v.name) (body.flatMap (·.2))).Nodup ∧
          ∀ v ∈ body.flatMap (·.2), (lower v.name, none) ∈ (args.map lower).map (fun a => (a, (none : Option VarRec)))
      · rw [(hall h1).1 h2, Option.bind_some]
        have : complete (((args.map lower).map fun a => (a, none)).map fun p => (p.1, match p.2 with
            | some v => some v
            | none => decl (body.flatMap (·.2)) p.1)) = none := by
          cases hc : complete (((args.map lower).map fun a => (a, none)).map fun p => (p.1, match p.2 with
            | some v => some v
            | none => decl (body.flatMap (·.2)) p.1)) with
          | none => rfl
          | some vs =>
            exfalso
            apply hno
            refine ⟨h1, h2.1, fun v hv => (hmem _).1 (h2.2 v hv), fun a ha => ?_⟩
            have := complete_some.1 hc
            have hm : (a, decl (body.flatMap (·.2)) a) ∈ ((args.map lower).map fun a => (a, none)).map fun p =>
                (p.1, match p.2 with
                  | some v => some v
                  | none => decl (body.flatMap (·.2)) p.1) := by
              rw [List.map_map]
              exact List.mem_map.2 ⟨a, ha, rfl⟩
            rw [this] at hm
            obtain ⟨q, hq, e⟩ := List.mem_map.1 hm
            injection e with e1 e2
            exact ⟨q.2, List.mem_of_find?_eq_some e2.symm, by simpa using List.find?_some e2.symm⟩
        rw [this]
        rfl
      · rw [(hall h1).2 h2]
        rfl
    · rw [if_neg h1]

/-- **C60**: without a subroutine statement there is an error. -/
theorem C60_not_found (table : List Char) (logger : Bool) (ls : List (List (List Char)))
    (h : ∀ l ∈ ls, ∀ s ∈ l, ¬ Begins ["subroutine".toList] s ∧
      ∀ p ∈ ["recursive".toList, "pure".toList, "elemental".toList], ¬ Begins [p, "subroutine".toList] s) :
    parseScheme table logger ls = none := by
  have hstep : ∀ s, subStmt s = none → ∀ st : St, st.args = none → st.inpre = false →
      (step table logger st s = none ∨ (∃ st', step table logger st s = some (.inl st') ∧ st'.args = none ∧ st'.inpre = false) ∨
        ∃ st' b, step table logger st s = some (.inr (st', b)) ∧ st'.args = none ∧ st'.inpre = false) := by
    intro s hs st h1 h2
    obtain ⟨name, inpre, seen, insub, args⟩ := st
    simp only at h1 h2
    subst h1 h2
    unfold step
    simp only [hs, ite_self, Bool.false_or, Bool.false_eq_true, if_false]
    repeat' split
    all_goals first
      | exact .inl rfl
      | exact .inr (.inl ⟨_, rfl, rfl, rfl⟩)
      | exact .inr (.inr ⟨_, _, rfl, rfl, rfl⟩)
  have hline : ∀ l : List Str, (∀ s ∈ l, subStmt s = none) → ∀ st : St, st.args = none → st.inpre = false →
      ∀ x, line table logger st l = some x → x.1.args = none ∧ x.1.inpre = false := by
    intro l
    induction l with
    | nil => intro _ st h1 h2 x hx; injection hx with hx; subst hx; exact ⟨h1, h2⟩
    | cons s l ih =>
      intro hl st h1 h2 x hx
      rw [line] at hx
      rcases hstep s (hl s List.mem_cons_self) st h1 h2 with e | ⟨st', e, i1, i2⟩ | ⟨st', b, e, i1, i2⟩
      · rw [e] at hx; cases hx
      · rw [e] at hx
        exact ih (fun y hy => hl y (List.mem_cons_of_mem _ hy)) st' i1 i2 x hx
      · rw [e] at hx
        cases b <;> (injection hx with hx; subst hx; exact ⟨i1, i2⟩)
  have hlines : ∀ ls : List (List Str), (∀ l ∈ ls, ∀ s ∈ l, subStmt s = none) → ∀ st : St, st.args = none →
      st.inpre = false → ∀ x, lines table logger st ls = some x → x.1.args = none := by
    intro ls
    induction ls with
    | nil => intro _ st h1 h2 x hx; injection hx with hx; subst hx; exact h1
    | cons l ls ih =>
      intro hl st h1 h2 x hx
      rw [lines] at hx
      cases he : line table logger st l with
      | none => rw [he] at hx; cases hx
      | some y =>
        obtain ⟨i1, i2⟩ := hline l (hl l List.mem_cons_self) st h1 h2 y he
        rw [he] at hx
        simp only at hx
        split at hx
        · exact ih (fun k hk => hl k (List.mem_cons_of_mem _ hk)) y.1 i1 i2 x hx
        · injection hx with hx; subst hx; exact i1
  unfold parseScheme
  cases he : lines table logger {} ls with
  | none => rfl
  | some x =>
    have := hlines ls (fun l hl s hs => Classical.byContradiction fun hn => by
      rcases subStmt_some hn with hb | ⟨p, hp, hb⟩
      · exact (h l hl s hs).1 hb
      · exact (h l hl s hs).2 p hp hb) {} rfl rfl x he
    obtain ⟨st, left, rest⟩ := x
    simp only at this ⊢
    rw [this]
    rfl

end Ccpp.FSub
