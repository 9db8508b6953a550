import Verif.Spec.PrettyPrint
/-!
# C95: the printed form of a datatable
-/
namespace Ccpp.Pretty

/-! ## Words -/

theorem wordsGo_sep {c : Char} (hc : isWs c = true) : ∀ (a cur b : Str),
    wordsGo cur (a ++ c :: b) = wordsGo cur a ++ wordsGo [] b
  | [], cur, b => by simp [wordsGo, hc]
  | d :: a, cur, b => by
    rw [List.cons_append, wordsGo, wordsGo]
    split
    · rw [wordsGo_sep hc a, List.append_assoc]
    · exact wordsGo_sep hc a _ b

theorem words_sep {c : Char} (hc : isWs c = true) (a b : Str) : words (a ++ c :: b) = words a ++ words b :=
  wordsGo_sep hc a [] b

theorem words_blank_append : ∀ (b s : Str), (∀ c ∈ b, isWs c = true) → words (b ++ s) = words s
  | [], s, _ => rfl
  | c :: b, s, h => by
    have hc := h c List.mem_cons_self
    have := words_blank_append b s fun d hd => h d (List.mem_cons_of_mem _ hd)
    rw [List.cons_append]
    show wordsGo [] (c :: (b ++ s)) = _
    rw [wordsGo, if_pos hc]
    exact this

theorem wordsGo_append_blank (b : Str) (h : ∀ c ∈ b, isWs c = true) : ∀ (s cur : Str),
    wordsGo cur (s ++ b) = wordsGo cur s
  | [], cur => by
    cases b with
    | nil => rfl
    | cons c b =>
      have h0 : words (b ++ []) = words [] := words_blank_append b [] fun d hd => h d (List.mem_cons_of_mem _ hd)
      rw [List.append_nil] at h0
      have h0 : wordsGo [] b = [] := h0
      have hc := h c List.mem_cons_self
      simp [wordsGo, hc, h0]
  | d :: s, cur => by
    rw [List.cons_append, wordsGo, wordsGo]
    split
    · rw [wordsGo_append_blank b h s]
    · exact wordsGo_append_blank b h s _

theorem words_append_blank (s b : Str) (h : ∀ c ∈ b, isWs c = true) : words (s ++ b) = words s :=
  wordsGo_append_blank b h s []

theorem takeWhile_all {p : Char → Bool} : ∀ (s : Str), ∀ c ∈ s.takeWhile p, p c = true
  | [], c, h => by cases h
  | d :: s, c, h => by
    rw [List.takeWhile_cons] at h
    split at h
    · next hd =>
      rcases List.mem_cons.1 h with rfl | h
      · exact hd
      · exact takeWhile_all s c h
    · cases h

theorem rstrip_split (s : Str) : ∃ b, s = rstrip s ++ b ∧ ∀ c ∈ b, isWs c = true := by
  refine ⟨(s.reverse.takeWhile isWs).reverse, ?_, fun c hc => takeWhile_all _ c (List.mem_reverse.1 hc)⟩
  unfold rstrip
  rw [← List.reverse_append, List.takeWhile_append_dropWhile, List.reverse_reverse]

theorem lstrip_split (s : Str) : ∃ b, s = b ++ lstrip s ∧ ∀ c ∈ b, isWs c = true :=
  ⟨s.takeWhile isWs, (List.takeWhile_append_dropWhile).symm, takeWhile_all s⟩

theorem words_rstrip (s : Str) : words (rstrip s) = words s := by
  obtain ⟨b, e, hb⟩ := rstrip_split s
  conv => rhs; rw [e]
  exact (words_append_blank _ b hb).symm

theorem words_strip (s : Str) : words (strip s) = words s := by
  unfold strip
  obtain ⟨b, e, hb⟩ := lstrip_split (rstrip s)
  rw [← words_rstrip s]
  conv => rhs; rw [e]
  exact (words_blank_append b _ hb).symm

theorem indent_blank (n : Nat) : indentStr n = List.replicate (2 * n) ' ' := by
  unfold indentStr
  have e : "  ".toList = List.replicate 2 ' ' := by decide
  rw [e]
  induction n with
  | zero => rfl
  | succ n ih => rw [List.replicate_succ, List.flatten_cons, ih, List.replicate_append_replicate]; congr 1; omega

theorem indent_ws (n : Nat) : ∀ c ∈ indentStr n, isWs c = true := by
  rw [indent_blank]
  intro c hc
  rw [List.eq_of_mem_replicate hc]; rfl

theorem nl_eq : "\n".toList = ['\n'] := by decide

/-- A chosen wrap point is a blank of the line. -/
theorem chosen {line : Str} {curr point : Nat} {wrap : Int} (h : choose (wrapPoints curr line) wrap = some point) :
    ∃ k, point - curr = k ∧ line = line.take k ++ ' ' :: line.drop (k + 1) ∧ point = curr + k ∧ k < line.length := by
  obtain ⟨k, hk, hs⟩ := (wrapPoints_iff _ _ _).1 (choose_mem h)
  obtain ⟨hlt, hs⟩ := List.getElem?_eq_some_iff.1 hs
  refine ⟨k, by omega, ?_, hk, hlt⟩
  rw [← hs, ← List.drop_eq_getElem_cons hlt, List.take_append_drop]

theorem words_line (n : Nat) (s t : Str) : words (indentStr n ++ s ++ "\n".toList ++ t) = words s ++ words t := by
  rw [nl_eq, List.append_assoc, List.singleton_append, words_sep (by decide), words_blank_append _ _ (indent_ws n)]

/-- C95: wrapping keeps all words of a line, in order. -/
theorem C95_words (line : Str) (indent : Nat) (wrap : Int) (inc : Bool) :
    words (formatLine line indent wrap inc) = words line := by
  have h1 : ∀ line n, words (indentStr n ++ strip line ++ "\n".toList) = words line := by
    intro line n
    have := words_line n (strip line) []
    rw [List.append_nil] at this
    rw [this, words_strip]
    exact List.append_nil _
  fun_induction formatLine line indent wrap inc with
  | case1 => exact h1 _ _
  | case2 lineIn indent inc line curr _ point hc ih =>
    obtain ⟨k, e, hl, _, _⟩ := chosen hc
    simp only [dite_eq_ite] at ih
    rw [words_line, ih, e, ← words_sep (c := ' ') (by decide), ← hl]
    exact words_strip _
  | case3 => exact h1 _ _

theorem formatLine_end (line : Str) (indent : Nat) (wrap : Int) (inc : Bool) :
    ∃ t, formatLine line indent wrap inc = t ++ ['\n'] := by
  fun_induction formatLine line indent wrap inc with
  | case1 => exact ⟨_, by rw [nl_eq]⟩
  | case2 lineIn indent inc line curr _ point hc ih =>
    simp only [dite_eq_ite] at ih
    obtain ⟨t, ht⟩ := ih
    exact ⟨_, by rw [ht, ← List.append_assoc]⟩
  | case3 => exact ⟨_, by rw [nl_eq]⟩

theorem words_nl_append {a t : Str} (h : a = t ++ ['\n']) (b : Str) : words (a ++ b) = words a ++ words b := by
  have e : words a = words t := by
    rw [h]; exact words_append_blank _ _ (by intro c hc; rw [List.mem_singleton.1 hc]; decide)
  rw [e, h, List.append_assoc, List.singleton_append, words_sep (by decide)]

theorem pretty_end (indent : Nat) (wrap : Int) : ∀ e, ∃ t, pretty indent wrap e = t ++ ['\n']
  | .mk tag attrib text kids => by
    unfold pretty
    simp only
    split
    · obtain ⟨t, ht⟩ := formatLine_end ("</".toList ++ tag ++ ">".toList) indent wrap true
      exact ⟨_, by rw [ht, ← List.append_assoc]⟩
    · exact formatLine_end _ _ _ _

mutual
/-- C95: the printed form of an element consists of the words that describe it, for every indentation and limit. -/
theorem C95_table (indent : Nat) (wrap : Int) : ∀ e, words (pretty indent wrap e) = describe e
  | .mk tag attrib text kids => by
    unfold pretty describe
    simp only
    have ih := C95_children (indent + 1) wrap kids
    obtain ⟨t0, ht0⟩ := formatLine_end (opening tag attrib ++ ">".toList) indent wrap true
    have h2 : ∀ r : Str, words (rstrip r ++ "\n".toList ++ formatLine ("</".toList ++ tag ++ ">".toList) indent wrap) =
        words r ++ words ("</".toList ++ tag ++ ">".toList) := by
      intro r
      rw [nl_eq, List.append_assoc, List.singleton_append, words_sep (by decide), words_rstrip, C95_words]
    cases hk : kids.isEmpty <;> cases hx : text.isEmpty <;>
      simp only [Bool.not_false, Bool.not_true, Bool.or_false, Bool.or_true, Bool.false_or, Bool.and_true, Bool.and_false,
        Bool.false_eq_true, if_true, if_false]
    · obtain ⟨t1, ht1⟩ : ∃ t1, formatLine (opening tag attrib ++ ">".toList) indent wrap ++
          prettyAll (indent + 1) wrap kids = t1 ++ ['\n'] := by
        obtain ⟨t, ht⟩ := prettyAll_end (indent + 1) wrap kids (by intro e; rw [e] at hk; simp at hk)
        exact ⟨_, by rw [ht, ← List.append_assoc]⟩
      rw [h2, words_nl_append ht1, words_nl_append ht0, C95_words, C95_words, ih]
      rfl
    · rw [h2, words_nl_append ht0, C95_words, ih]
      have : text = [] := by simpa using hx
      subst this
      exact congrArg (· ++ _) (List.append_nil _).symm
    · have : kids = [] := by simpa using hk
      subst this
      rw [h2, prettyAll, List.append_nil, words_nl_append ht0, C95_words, C95_words, describeAll, List.append_nil]
      rfl
    · exact C95_words _ _ _ _

/-- C95: likewise for the children of an element. -/
theorem C95_children (indent : Nat) (wrap : Int) : ∀ es, words (prettyAll indent wrap es) = describeAll es
  | [] => rfl
  | e :: es => by
    unfold prettyAll describeAll
    obtain ⟨t, ht⟩ := pretty_end indent wrap e
    rw [words_nl_append ht, C95_table indent wrap e, C95_children indent wrap es]

theorem prettyAll_end (indent : Nat) (wrap : Int) : ∀ es, es ≠ [] → ∃ t, prettyAll indent wrap es = t ++ ['\n']
  | [], h => absurd rfl h
  | e :: es, _ => by
    unfold prettyAll
    cases es with
    | nil => obtain ⟨t, ht⟩ := pretty_end indent wrap e; exact ⟨t, by rw [ht]; simp [prettyAll]⟩
    | cons e' es =>
      obtain ⟨t, ht⟩ := prettyAll_end indent wrap (e' :: es) (by simp)
      exact ⟨_, by rw [ht, ← List.append_assoc]⟩
end

/-! ## Lines -/

theorem linesGo_nl : ∀ (a cur b : Str), linesGo cur (a ++ '\n' :: b) = linesGo cur a ++ linesGo [] b
  | [], cur, b => by simp [linesGo]
  | d :: a, cur, b => by
    rw [List.cons_append, linesGo, linesGo]
    split
    · rw [linesGo_nl a, List.cons_append]
    · exact linesGo_nl a _ b

theorem lines_nl (a b : Str) : lines (a ++ '\n' :: b) = lines a ++ lines b := linesGo_nl a [] b

theorem linesGo_one : ∀ (a cur : Str), '\n' ∉ a → linesGo cur a = [cur ++ a]
  | [], cur, _ => by simp [linesGo]
  | c :: a, cur, h => by
    have hc : c ≠ '\n' := fun e => h (by rw [e]; exact List.mem_cons_self)
    rw [linesGo, if_neg hc, linesGo_one a _ fun hm => h (List.mem_cons_of_mem _ hm), List.append_assoc, List.singleton_append]

theorem lines_one {a : Str} (h : '\n' ∉ a) : lines a = [a] := linesGo_one a [] h

theorem linesGo_prefix : ∀ (t cur u l : Str), l ∈ linesGo cur t → ∃ l' ∈ linesGo cur (t ++ u), l <+: l'
  | [], cur, u, l, h => by
    have : l = cur := by simpa [linesGo] using h
    subst this
    clear h
    rw [List.nil_append]
    induction u generalizing l with
    | nil => exact ⟨l, by simp [linesGo], List.prefix_refl _⟩
    | cons c u ih =>
      rw [linesGo]
      split
      · exact ⟨l, List.mem_cons_self, List.prefix_refl _⟩
      · obtain ⟨l', hl', hp⟩ := ih (l ++ [c])
        exact ⟨l', hl', (List.prefix_append l [c]).trans hp⟩
  | c :: t, cur, u, l, h => by
    rw [List.cons_append]
    rw [linesGo] at h ⊢
    split
    · next hc =>
      rw [if_pos hc] at h
      rcases List.mem_cons.1 h with rfl | h
      · exact ⟨l, List.mem_cons_self, List.prefix_refl _⟩
      · obtain ⟨l', hl', hp⟩ := linesGo_prefix t [] u l h
        exact ⟨l', List.mem_cons_of_mem _ hl', hp⟩
    · next hc =>
      rw [if_neg hc] at h
      exact linesGo_prefix t _ u l h

theorem fits_prefix {wrap : Nat} {l l' : Str} (h : Fits wrap l') (hp : l <+: l') : Fits wrap l := by
  rcases h with h | ⟨n, w, rfl, hw⟩
  · exact Or.inl (Nat.le_trans hp.length_le h)
  · have hcase : l <+: List.replicate n ' ' ∨ ∃ r, l = List.replicate n ' ' ++ r ∧ r <+: w := by
      obtain ⟨u, hu⟩ := hp
      rcases List.append_eq_append_iff.1 hu with ⟨a, h1, _⟩ | ⟨a, h1, h2⟩
      · exact Or.inl ⟨a, h1.symm⟩
      · exact Or.inr ⟨a, h1, ⟨u, h2.symm⟩⟩
    rcases hcase with h | ⟨r, rfl, hr⟩
    · right
      obtain ⟨m, hm⟩ : ∃ m, l = List.replicate m ' ' := by
        refine ⟨l.length, List.eq_replicate_iff.2 ⟨rfl, fun b hb => ?_⟩⟩
        exact List.eq_of_mem_replicate (h.subset hb)
      exact ⟨m, [], by rw [hm, List.append_nil], by simp⟩
    · exact Or.inr ⟨n, r, rfl, fun hm => hw (hr.subset hm)⟩

theorem fits_rstrip {wrap : Nat} {s : Str} (h : ∀ l ∈ lines s, Fits wrap l) : ∀ l ∈ lines (rstrip s), Fits wrap l := by
  intro l hl
  obtain ⟨b, e, _⟩ := rstrip_split s
  obtain ⟨l', hl', hp⟩ := linesGo_prefix (rstrip s) [] b l hl
  rw [← e] at hl'
  exact fits_prefix (h l' hl') hp

theorem nl_strip {s : Str} (h : '\n' ∉ s) : '\n' ∉ strip s := by
  intro hm
  obtain ⟨b, e, _⟩ := lstrip_split (rstrip s)
  obtain ⟨b', e', _⟩ := rstrip_split s
  apply h
  rw [e']
  apply List.mem_append_left
  rw [e]
  exact List.mem_append_right _ hm

theorem nl_indent (n : Nat) : '\n' ∉ indentStr n := by
  rw [indent_blank]
  intro hm
  have := List.eq_of_mem_replicate hm
  revert this; decide

theorem lines_out {n : Nat} {s : Str} (h : '\n' ∉ s) (t : Str) :
    lines (indentStr n ++ s ++ "\n".toList ++ t) = (indentStr n ++ s) :: lines t := by
  have : '\n' ∉ indentStr n ++ s := by
    intro hm
    rcases List.mem_append.1 hm with hm | hm
    · exact nl_indent n hm
    · exact h hm
  rw [nl_eq, List.append_assoc, List.singleton_append, lines_nl, lines_one this]; rfl

theorem lines_out' {n : Nat} {s : Str} (h : '\n' ∉ s) :
    lines (indentStr n ++ s ++ "\n".toList) = [indentStr n ++ s, []] := by
  have := lines_out (n := n) h []
  rw [List.append_nil] at this
  rw [this]; rfl

theorem choose_cases {points : List Nat} {wrap : Int} {w : Nat} (h : choose points wrap = some w) :
    ((w : Int) ≤ wrap ∧ ∀ x ∈ points, (x : Int) ≤ wrap → x ≤ w) ∨
      ((∀ x ∈ points, wrap < (x : Int)) ∧ ∀ x ∈ points, w ≤ x) := by
  unfold choose at h
  simp only at h
  split at h
  · obtain ⟨hm, hx⟩ := List.max?_eq_some_iff.1 h
    left
    refine ⟨by simpa using (List.mem_filter.1 hm).2, fun x hxm hxw => hx x (List.mem_filter.2 ⟨hxm, by simpa using hxw⟩)⟩
  · next hg =>
    split at h
    · obtain ⟨hm, hx⟩ := List.min?_eq_some_iff.1 h
      right
      refine ⟨fun x hxm => ?_, hx⟩
      have hg : List.filter (fun (x : Nat) => decide ((x : Int) ≤ wrap)) points = [] := by simpa using hg
      have := List.filter_eq_nil_iff.1 hg x hxm
      simp at this
      omega
    · cases h

theorem choose_none {points : List Nat} {wrap : Int} (h : choose points wrap = none) : points = [] := by
  unfold choose at h
  simp only at h
  split at h
  · next hg =>
    rw [List.max?_eq_none_iff] at h
    rw [h] at hg; simp at hg
  · split at h
    · rw [List.min?_eq_none_iff] at h; exact h
    · next hp => simpa using hp

theorem mem_index {c : Char} : ∀ {s : Str}, c ∈ s → ∃ k : Nat, s[k]? = some c := fun h => by
  obtain ⟨k, hk, e⟩ := List.getElem_of_mem h
  exact ⟨k, by rw [List.getElem?_eq_getElem hk, e]⟩

/-- C95: with a limit, every line that is written fits, or is one piece without a blank. -/
theorem C95_lines (line : Str) (indent wrap : Nat) (inc : Bool) (hw : 0 < wrap) (h : '\n' ∉ line) :
    ∀ l ∈ lines (formatLine line indent wrap inc), Fits wrap l := by
  have h0 : Fits wrap [] := Or.inl (by simp)
  have main : ∀ (line : Str) (indent : Nat) (wrapI : Int) (inc : Bool), wrapI = (wrap : Int) → '\n' ∉ line →
      ∀ l ∈ lines (formatLine line indent wrapI inc), Fits wrap l := by
    intro line indent wrapI inc
    fun_induction formatLine line indent wrapI inc with
    | case1 lineIn indent inc line curr hc =>
      intro e hn l hl
      subst e
      rw [lines_out' (nl_strip hn)] at hl
      simp only [List.mem_cons, List.not_mem_nil, or_false] at hl
      rcases hl with rfl | rfl
      · left
        have hlen : (indentStr indent ++ strip lineIn).length = line.length + curr := by
          rw [List.length_append]; exact Nat.add_comm _ _
        omega
      · exact h0
    | case2 lineIn indent inc line curr hnw point hc ih =>
      intro e hn l hl
      subst e
      obtain ⟨k, ek, hline, ep, hk⟩ := chosen hc
      have hn' := nl_strip hn
      have hnt : '\n' ∉ line.take (point - curr) := fun hm => hn' (List.mem_of_mem_take hm)
      have hnd : '\n' ∉ line.drop (point - curr + 1) := fun hm => hn' (List.mem_of_mem_drop hm)
      rw [lines_out hnt] at hl
      rcases List.mem_cons.1 hl with rfl | hl
      · have hlen : (indentStr indent ++ line.take (point - curr)).length = point := by
          rw [List.length_append, List.length_take]; omega
        rcases choose_cases hc with ⟨hle, _⟩ | ⟨_, hmin⟩
        · left; omega
        · right
          refine ⟨2 * indent, _, by rw [← indent_blank], ?_⟩
          intro hm
          obtain ⟨j, hj⟩ := mem_index hm
          rw [List.getElem?_take] at hj
          split at hj
          · next hlt =>
            have := hmin (curr + j) ((wrapPoints_iff _ _ _).2 ⟨j, rfl, hj⟩)
            omega
          · cases hj
      · exact ih rfl hnd l hl
    | case3 lineIn indent inc line curr hnw hc =>
      intro e hn l hl
      rw [lines_out' (nl_strip hn)] at hl
      simp only [List.mem_cons, List.not_mem_nil, or_false] at hl
      rcases hl with rfl | rfl
      · right
        refine ⟨2 * indent, _, by rw [← indent_blank], ?_⟩
        intro hm
        obtain ⟨j, hj⟩ := mem_index hm
        have := (wrapPoints_iff curr line (curr + j)).2 ⟨j, rfl, hj⟩
        rw [choose_none hc] at this
        cases this
      · exact h0
  exact main line indent wrap inc rfl h

/-- C95: a line is broken only if it does not fit, and then at the last blank that lets its first part fit, if there is
one. -/
theorem C95_fills (line : Str) (indent wrap : Nat) (inc : Bool) (hw : 0 < wrap) :
    ((strip line).length + 2 * indent ≤ wrap → formatLine line indent wrap inc = indentStr indent ++ strip line ++ ['\n']) ∧
    (wrap < (strip line).length + 2 * indent → ∀ a b, strip line = a ++ ' ' :: b → 2 * indent + a.length ≤ wrap →
      ∃ a' b' rest, strip line = a' ++ ' ' :: b' ∧ 2 * indent + a'.length ≤ wrap ∧ a.length ≤ a'.length ∧
        formatLine line indent wrap inc = indentStr indent ++ a' ++ ['\n'] ++ rest) := by
  have hi : (indentStr indent).length = 2 * indent := by rw [indent_blank, List.length_replicate]
  constructor
  · intro h
    rw [formatLine]
    rw [if_pos (by right; rw [hi]; omega), nl_eq]
  · intro h a b e ha
    rw [formatLine]
    rw [if_neg (by rw [hi]; omega)]
    have hm : 2 * indent + a.length ∈ wrapPoints (2 * indent) (strip line) :=
      (wrapPoints_iff _ _ _).2 ⟨a.length, rfl, by rw [e]; simp⟩
    split
    · next point hc =>
      rw [hi] at hc
      obtain ⟨k, ek, hline, ep, hk⟩ := chosen hc
      rw [hi, ek]
      have hkl : ((strip line).take k).length = k := by rw [List.length_take]; omega
      rcases choose_cases hc with ⟨hle, hmax⟩ | ⟨hno, _⟩
      · have := hmax _ hm (by omega)
        exact ⟨(strip line).take k, (strip line).drop (k + 1), _, hline, by omega, by omega, by rw [nl_eq]⟩
      · have := hno _ hm
        omega
    · next hc =>
      rw [hi] at hc
      rw [choose_none hc] at hm
      cases hm

/-- C95: without a limit a line is not broken. -/
theorem C95_no_wrap (line : Str) (indent : Nat) (wrap : Int) (inc : Bool) (hw : wrap ≤ 0) :
    formatLine line indent wrap inc = List.replicate (2 * indent) ' ' ++ strip line ++ ['\n'] := by
  rw [formatLine]
  rw [if_pos (Or.inl hw), nl_eq, indent_blank]

/-- C95: every line begins with the indentation of its element. -/
theorem C95_indented (line : Str) (indent : Nat) (wrap : Int) (inc : Bool) (h : '\n' ∉ line) :
    ∀ l ∈ lines (formatLine line indent wrap inc), l = [] ∨ List.replicate (2 * indent) ' ' <+: l := by
  fun_induction formatLine line indent wrap inc with
  | case1 lineIn indent inc line curr hc =>
    intro l hl
    rw [lines_out' (nl_strip h)] at hl
    simp only [List.mem_cons, List.not_mem_nil, or_false] at hl
    rcases hl with rfl | rfl
    · right; rw [indent_blank]; exact List.prefix_append _ _
    · exact Or.inl rfl
  | case2 lineIn indent inc line curr hnw point hc ih =>
    intro l hl
    have hn' := nl_strip h
    have hnt : '\n' ∉ line.take (point - curr) := fun hm => hn' (List.mem_of_mem_take hm)
    have hnd : '\n' ∉ line.drop (point - curr + 1) := fun hm => hn' (List.mem_of_mem_drop hm)
    rw [lines_out hnt] at hl
    rcases List.mem_cons.1 hl with rfl | hl
    · right; rw [indent_blank]; exact List.prefix_append _ _
    · rcases ih hnd l hl with hl | hl
      · exact Or.inl hl
      · right
        refine List.IsPrefix.trans ?_ hl
        refine ⟨List.replicate (2 * (if inc = true then indent + 2 else indent) - 2 * indent) ' ', ?_⟩
        rw [List.replicate_append_replicate]
        congr 1
        split <;> omega
  | case3 lineIn indent inc line curr hnw hc =>
    intro l hl
    rw [lines_out' (nl_strip h)] at hl
    simp only [List.mem_cons, List.not_mem_nil, or_false] at hl
    rcases hl with rfl | rfl
    · right; rw [indent_blank]; exact List.prefix_append _ _
    · exact Or.inl rfl

theorem lines_end_append {wrap : Nat} {a t : Str} (h : a = t ++ ['\n']) {b : Str} (ha : ∀ l ∈ lines a, Fits wrap l)
    (hb : ∀ l ∈ lines b, Fits wrap l) : ∀ l ∈ lines (a ++ b), Fits wrap l := by
  intro l hl
  rw [h, List.append_assoc, List.singleton_append, lines_nl] at hl
  rcases List.mem_append.1 hl with hl | hl
  · refine ha l ?_
    rw [h, lines_nl]
    exact List.mem_append_left _ hl
  · exact hb l hl

theorem opening_nl {tag : Str} {attrib : List (Str × Str)} (ht : '\n' ∉ tag) (ha : ∀ a ∈ attrib, '\n' ∉ a.1 ∧ '\n' ∉ a.2) :
    '\n' ∉ opening tag attrib := by
  unfold opening
  intro hm
  rcases List.mem_append.1 hm with hm | hm
  · rcases List.mem_append.1 hm with hm | hm
    · revert hm; decide
    · exact ht hm
  · obtain ⟨p, hp, hm⟩ := List.mem_flatten.1 hm
    obtain ⟨a, haa, rfl⟩ := List.mem_map.1 hp
    simp only [List.mem_append] at hm
    rcases hm with ((hm | hm) | hm) | hm
    · revert hm; decide
    · exact (ha a haa).1 hm
    · revert hm; decide
    · exact (ha a haa).2 hm

theorem nl_append {a b : Str} (ha : '\n' ∉ a) (hb : '\n' ∉ b) : '\n' ∉ a ++ b := by
  intro h
  rcases List.mem_append.1 h with h | h
  · exact ha h
  · exact hb h

mutual
/-- C95: the lines of a printed element fit, or are one piece without a blank. -/
theorem C95_table_lines (wrap : Nat) (hw : 0 < wrap) : ∀ (e : Entry) (indent : Nat), OneLine e →
    ∀ l ∈ lines (pretty indent wrap e), Fits wrap l
  | .mk tag attrib text kids, indent, h => by
    unfold OneLine at h
    obtain ⟨htag, hattr, htext, hkids⟩ := h
    have ho := opening_nl htag hattr
    unfold pretty
    simp only
    split
    · have h1 := C95_lines (opening tag attrib ++ ">".toList) indent wrap true hw (nl_append ho (by decide))
      have h2 := lines_end_append (formatLine_end (opening tag attrib ++ ">".toList) indent wrap true).choose_spec h1
        (C95_children_lines wrap hw kids (indent + 1) hkids)
      have h4 : ∃ t, formatLine (opening tag attrib ++ ">".toList) indent wrap ++ prettyAll (indent + 1) wrap kids =
          t ++ ['\n'] := by
        obtain ⟨t0, ht0⟩ := formatLine_end (opening tag attrib ++ ">".toList) indent wrap true
        cases kids with
        | nil => exact ⟨t0, by rw [prettyAll, List.append_nil, ht0]⟩
        | cons k ks =>
          obtain ⟨t, ht⟩ := prettyAll_end (indent + 1) wrap (k :: ks) (by simp)
          exact ⟨_, by rw [ht, ← List.append_assoc]⟩
      have h3 : ∀ l ∈ lines (if (!text.isEmpty) = true then
          formatLine (opening tag attrib ++ ">".toList) indent wrap ++ prettyAll (indent + 1) wrap kids ++
            formatLine text (indent + 1) wrap
          else formatLine (opening tag attrib ++ ">".toList) indent wrap ++ prettyAll (indent + 1) wrap kids),
          Fits wrap l := by
        split
        · exact lines_end_append h4.choose_spec h2 (C95_lines text (indent + 1) wrap true hw htext)
        · exact h2
      have h5 := fits_rstrip h3
      intro l hl
      rw [nl_eq, List.append_assoc, List.singleton_append, lines_nl] at hl
      rcases List.mem_append.1 hl with hl | hl
      · exact h5 l hl
      · exact C95_lines _ indent wrap true hw (nl_append (nl_append (by decide) htag) (by decide)) l hl
    · exact C95_lines _ indent wrap true hw (nl_append ho (by decide))

/-- C95: likewise for the children of an element. -/
theorem C95_children_lines (wrap : Nat) (hw : 0 < wrap) : ∀ (es : List Entry) (indent : Nat), OneLineAll es →
    ∀ l ∈ lines (prettyAll indent wrap es), Fits wrap l
  | [], indent, _ => by
    unfold prettyAll
    intro l hl
    have : l = [] := by simpa [lines, linesGo] using hl
    subst this
    exact Or.inl (by simp)
  | e :: es, indent, h => by
    unfold OneLineAll at h
    unfold prettyAll
    exact lines_end_append (pretty_end indent wrap e).choose_spec (C95_table_lines wrap hw e indent h.1)
      (C95_children_lines wrap hw es indent h.2)
end

/-! ## Cases -/

/-- `<scheme name=hello version="one two"><call file=hello.F90 /></scheme>` -/
private def table : Entry :=
  .mk "scheme".toList [("name".toList, "hello".toList), ("version".toList, "\"one two\"".toList)] []
    [.mk "call".toList [("file".toList, "hello.F90".toList)] [] []]

example : OneLine table := by
  simp only [table, OneLine, OneLineAll]
  decide

example : pretty 0 (20 : Nat) table =
    "<scheme name=hello\n    version=\"one\n    two\">\n  <call\n      file=hello.F90\n      />\n</scheme>\n".toList := by
  decide +kernel

example : describe table = ["<scheme".toList, "name=hello".toList, "version=\"one".toList, "two\">".toList,
    "<call".toList, "file=hello.F90".toList, "/>".toList, "</scheme>".toList] := by decide +kernel

example : formatLine "short line".toList 0 (2 : Nat) false = "short\nline\n".toList := by decide +kernel

end Ccpp.Pretty
