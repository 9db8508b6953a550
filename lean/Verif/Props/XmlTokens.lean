import Verif.Props.XmlWrite
/-!
# Lemmas for C65: the written tokens
-/
namespace Ccpp.XF

/-! ## Names and attributes -/

theorem nameChar_facts {c : Char} (h : NameChar c) : c ≠ '<' ∧ c ≠ '>' ∧ c ≠ '/' ∧ c ≠ '=' ∧ c ≠ '"' ∧ isBlank c = false := by
  have hb : isBlank c = true → False := by
    intro hb
    unfold isBlank at hb
    simp only [Bool.or_eq_true, beq_iff_eq, Bool.and_eq_true, decide_eq_true_eq] at hb
    rcases h with h | rfl | rfl | rfl
    · have : 48 ≤ c.toNat := by
        simp only [Char.isAlphanum, Char.isAlpha, Char.isUpper, Char.isLower, Char.isDigit, ge_iff_le, Bool.or_eq_true,
          Bool.and_eq_true, decide_eq_true_eq] at h
        rcases h with (h | h) | h
        · have : (65 : Nat) ≤ c.toNat := h.1
          omega
        · have : (97 : Nat) ≤ c.toNat := h.1
          omega
        · exact h.1
      rcases hb with (rfl | hb) | hb
      · revert this; decide
      · omega
      · omega
    · revert hb; decide
    · revert hb; decide
    · revert hb; decide
  refine ⟨?_, ?_, ?_, ?_, ?_, by cases h' : isBlank c with | false => rfl | true => exact (hb h').elim⟩
  all_goals
    rintro rfl
    rcases h with h | h | h | h <;> revert h <;> decide

/-- Characters of an escaped value. -/
theorem escAttr_chars {c x : Char} (h : x ∈ escAttr c) : x ≠ '<' ∧ x ≠ '>' ∧ x ≠ '"' ∧ (x = '/' → c = '/') := by
  have key : ∀ l : Str, (∀ y ∈ l, y ≠ '<' ∧ y ≠ '>' ∧ y ≠ '"' ∧ y ≠ '/') → x ∈ l →
      x ≠ '<' ∧ x ≠ '>' ∧ x ≠ '"' ∧ (x = '/' → c = '/') := by
    intro l hl hx
    obtain ⟨h1, h2, h3, h4⟩ := hl x hx
    exact ⟨h1, h2, h3, fun h => absurd h h4⟩
  unfold escAttr at h
  split at h
  · exact key _ (by decide) h
  · rename_i hq
    split at h
    · exact key _ (by decide) h
    · split at h
      · exact key _ (by decide) h
      · split at h
        · exact key _ (by decide) h
        · unfold escText at h
          split at h
          · exact key _ (by decide) h
          · split at h
            · exact key _ (by decide) h
            · rename_i hlt
              split at h
              · exact key _ (by decide) h
              · rename_i hgt
                split at h
                · refine key _ ?_ h
                  intro y h
                  rcases List.mem_append.1 h with h | h
                  · rcases List.mem_cons.1 h with h | h
                    · subst h; decide
                    · rcases List.mem_cons.1 h with h | h
                      · subst h; decide
                      · have := toDigits_isDigit h
                        refine ⟨?_, ?_, ?_, ?_⟩
                        all_goals
                          rintro rfl
                          revert this
                          decide
                  · simp only [List.mem_singleton] at h
                    subst h; decide
                · simp only [List.mem_singleton] at h
                  subst h
                  exact ⟨hlt, hgt, hq, id⟩

theorem escAttr_slash : escAttr '/' = ['/'] := by decide

theorem attrText_chars {a : Str × Str} (ha : Name a.1) {x : Char} (h : x ∈ attrText a) :
    x ≠ '<' ∧ x ≠ '>' ∧ (x = '/' → '/' ∈ a.2) := by
  unfold attrText at h
  rcases List.mem_append.1 h with h | h
  · rcases List.mem_append.1 h with h | h
    · rcases List.mem_cons.1 h with h | h
      · subst h; exact ⟨by decide, by decide, fun h => absurd h (by decide)⟩
      · have := nameChar_facts (ha.2 x h)
        exact ⟨this.1, this.2.1, fun h => absurd h this.2.2.1⟩
    · rcases List.mem_cons.1 h with h | h
      · subst h; exact ⟨by decide, by decide, fun h => absurd h (by decide)⟩
      · rcases List.mem_cons.1 h with h | h
        · subst h; exact ⟨by decide, by decide, fun h => absurd h (by decide)⟩
        · obtain ⟨c, hc, hx⟩ := List.mem_flatMap.1 h
          have := escAttr_chars hx
          exact ⟨this.1, this.2.1, fun h => by rw [← this.2.2.2 h]; exact hc⟩
  · simp only [List.mem_singleton] at h
    subst h; exact ⟨by decide, by decide, fun h => absurd h (by decide)⟩

theorem headText_chars {tag : Str} {attrs : List (Str × Str)} (ht : Name tag) (ha : ∀ a ∈ attrs, Name a.1) {x : Char}
    (h : x ∈ headText tag attrs) : x ≠ '<' ∧ x ≠ '>' ∧ (x = '/' → ∃ a ∈ attrs, '/' ∈ a.2) := by
  unfold headText at h
  rcases List.mem_append.1 h with h | h
  · have := nameChar_facts (ht.2 x h)
    exact ⟨this.1, this.2.1, fun h => absurd h this.2.2.1⟩
  · obtain ⟨a, hm, hx⟩ := List.mem_flatMap.1 h
    have := attrText_chars (ha a hm) hx
    exact ⟨this.1, this.2.1, fun h => ⟨a, hm, this.2.2 h⟩⟩

theorem slash_headText {tag : Str} {attrs : List (Str × Str)} {a : Str × Str} (hm : a ∈ attrs) (hs : '/' ∈ a.2) :
    '/' ∈ attrs.flatMap attrText := by
  refine List.mem_flatMap.2 ⟨a, hm, ?_⟩
  unfold attrText
  have : '/' ∈ a.2.flatMap escAttr := List.mem_flatMap.2 ⟨'/', hs, by rw [escAttr_slash]; simp⟩
  simp [this]

theorem attrText_last (a : Str × Str) : (attrText a).getLast? = some '"' := by
  unfold attrText
  rw [getLast?_append_right _ (by simp)]
  rfl

theorem headText_last {tag : Str} {attrs : List (Str × Str)} (ht : Name tag) {l : Char}
    (hl : (headText tag attrs).getLast? = some l) : l ≠ '/' := by
  unfold headText at hl
  rcases List.eq_nil_or_concat attrs with rfl | ⟨as, a, rfl⟩
  · rw [List.flatMap_nil, List.append_nil] at hl
    exact (nameChar_facts (ht.2 l (List.mem_of_getLast? hl))).2.2.1
  · rw [List.concat_eq_append, List.flatMap_append, List.flatMap_cons, List.flatMap_nil, List.append_nil, ← List.append_assoc,
      getLast?_append_right _ (by intro h; have := attrText_last a; rw [h] at this; cases this), attrText_last] at hl
    injection hl with hl
    subst hl
    decide

theorem unesc_value {v s : Str} : readAttrs (.value n v) (w ++ '"' :: s) = if (∀ x ∈ w, x ≠ '"') then
    (unesc none (v ++ w)).bind fun v' => (readAttrs .between s).map ((n, v') :: ·) else
      readAttrs (.value n v) (w ++ '"' :: s) := by
  split
  · rename_i h
    induction w generalizing v with
    | nil => rw [List.nil_append, readAttrs, if_pos rfl, List.append_nil]
    | cons c w ih =>
      rw [List.cons_append, readAttrs, if_neg (h c (by simp)), ih fun x hx => h x (by simp [hx]), List.append_assoc]
      rfl
  · rfl

theorem read_name {n m s : Str} (h : ∀ x ∈ m, x ≠ '=') :
    readAttrs (.name n) (m ++ '=' :: s) = readAttrs (.equals (n ++ m)) s := by
  induction m generalizing n with
  | nil => rw [List.nil_append, readAttrs, if_pos rfl, List.append_nil]
  | cons c m ih =>
    rw [List.cons_append, readAttrs, if_neg (h c (by simp)), ih fun x hx => h x (by simp [hx]), List.append_assoc]
    rfl

theorem read_attr {a : Str × Str} (ha : Name a.1) (s : Str) :
    readAttrs .between (attrText a ++ s) = (readAttrs .between s).map (a :: ·) := by
  obtain ⟨n, v⟩ := a
  cases n with
  | nil => exact absurd rfl ha.1
  | cons c n =>
    have hc := nameChar_facts (ha.2 c (by simp))
    have e : attrText (c :: n, v) ++ s = ' ' :: c :: (n ++ '=' :: '"' :: (v.flatMap escAttr ++ '"' :: s)) := by
      simp [attrText]
    rw [e, readAttrs, if_pos (by decide), readAttrs, if_neg (by rw [hc.2.2.2.2.2]; simp), read_name (fun x hx =>
      (nameChar_facts (ha.2 x (by simp [hx]))).2.2.2.1), readAttrs, if_pos rfl, unesc_value, if_pos, List.nil_append,
      unesc_attr]
    · rfl
    · intro x hx
      obtain ⟨y, _, hx⟩ := List.mem_flatMap.1 hx
      exact (escAttr_chars hx).2.2.1

theorem read_attrs {attrs : List (Str × Str)} (ha : ∀ a ∈ attrs, Name a.1) {b : Str} (hb : ∀ c ∈ b, isBlank c = true) :
    readAttrs .between (attrs.flatMap attrText ++ b) = some attrs := by
  induction attrs with
  | nil =>
    rw [List.flatMap_nil, List.nil_append]
    induction b with
    | nil => rfl
    | cons c b ih => rw [readAttrs, if_pos (hb c (by simp))]; exact ih fun x hx => hb x (by simp [hx])
  | cons a attrs ih =>
    rw [List.flatMap_cons, List.append_assoc, read_attr (ha a (by simp)), ih fun x hx => ha x (by simp [hx])]
    rfl

theorem read_head {tag : Str} {attrs : List (Str × Str)} (ht : Name tag) (ha : ∀ a ∈ attrs, Name a.1) {b : Str}
    (hb : ∀ c ∈ b, isBlank c = true) : readHead (headText tag attrs ++ b) = some (tag, attrs) := by
  have hall : ∀ x ∈ tag, (!isBlank x) = true := fun x hx => by
    rw [(nameChar_facts (ht.2 x hx)).2.2.2.2.2]; rfl
  have key : (headText tag attrs ++ b).takeWhile (fun c => !isBlank c) = tag ∧
      (headText tag attrs ++ b).dropWhile (fun c => !isBlank c) = attrs.flatMap attrText ++ b := by
    unfold headText
    rw [List.append_assoc]
    cases hx : attrs.flatMap attrText ++ b with
    | nil =>
      rw [List.append_nil]
      have h1 := dropWhile_append_all (b := []) hall
      rw [List.append_nil] at h1
      have h2 := take_drop (fun c => !isBlank c) tag
      rw [h1] at h2
      exact ⟨by simpa using h2, h1⟩
    | cons c s =>
      refine takeWhile_stop hall c s ?_
      have : isBlank c = true := by
        cases attrs with
        | nil =>
          rw [List.flatMap_nil, List.nil_append] at hx
          exact hb c (by rw [hx]; simp)
        | cons a attrs =>
          rw [List.flatMap_cons] at hx
          unfold attrText at hx
          simp only [List.cons_append] at hx
          injection hx with hx _
          rw [← hx]
          decide
      rw [this]
      rfl
  unfold readHead
  simp only [key]
  rw [if_neg ht.1, read_attrs ha hb]
  rfl

/-! ## The written text as a sequence of tags and texts -/

/-- A tag or a text. -/
inductive PT where
  | tag (m : Str)
  | text (s : Str)

/-- The characters of tags and texts. -/
def flat : List PT → Str
  | [] => []
  | .tag m :: ts => '<' :: m ++ '>' :: flat ts
  | .text s :: ts => s ++ flat ts

theorem flat_append (a b : List PT) : flat (a ++ b) = flat a ++ flat b := by
  induction a with
  | nil => rfl
  | cons t a ih => cases t <;> simp [flat, ih]

/-- Is the last thing before an end tag a text? -/
def endText : Bool → List Elem → Bool
  | b, [] => b
  | _, e :: es => endText (decide (e.tail ≠ [])) es

mutual
/-- What is written for an element. -/
def out : Nat → Elem → List PT
  | ind, .mk tag attrs text kids tail =>
    (if text = [] ∧ kids.isEmpty = true then
      [.text (indent ind), .tag (headText tag attrs ++ [' ', '/']), .text ['\n']]
    else
      [.text (indent ind), .tag (headText tag attrs), .text (if text = [] then ['\n'] else strip (text.flatMap escText))] ++
      outs (ind + 1) kids ++
      [.text (if endText (decide (text ≠ [])) kids = true then [] else indent ind), .tag ('/' :: tag), .text ['\n']]) ++
    [.text (strip (tail.flatMap escText))]
/-- The same for a list. -/
def outs : Nat → List Elem → List PT
  | _, [] => []
  | ind, e :: es => out ind e ++ outs ind es
end

theorem toString_head (e : Elem) (s : Str) : (toString e ++ s).head? = some '<' := by
  cases e with
  | mk tag attrs text kids tail =>
    rw [toString]
    split <;> rfl

theorem toStrings_head (es : List Elem) {s : Str} (hs : s = [] ∨ s.head? = some '<') :
    toStrings es ++ s = [] ∨ (toStrings es ++ s).head? = some '<' := by
  cases es with
  | nil => rw [toStrings]; exact hs
  | cons e es =>
    rw [toStrings, List.append_assoc]
    exact .inr (toString_head e _)

/-- After a text (possibly empty). -/
theorem pretty_text' {ind : Nat} {lt : Bool} {t s : Str} (hs : s = [] ∨ s.head? = some '<') :
    pretty ind lt (t.flatMap escText ++ s) =
      (pretty ind (decide (t ≠ []) || (lt && decide (t = []))) s).map (strip (t.flatMap escText) ++ ·) := by
  by_cases ht : t = []
  · subst ht
    have : strip [] = [] := rfl
    simp [this]
  · rw [pretty_text (fun h => ht (flatMap_escText_nil.1 h)) (fun x hx => (escText_text hx).1) hs]
    simp [ht]

theorem strip_newline : ∀ c ∈ (['\n'] : Str), isBlank c = true := by decide

theorem indent_blank (n : Nat) : ∀ c ∈ indent n, isBlank c = true := by
  intro c hc
  unfold indent at hc
  rw [List.mem_flatten] at hc
  obtain ⟨l, hl, hc⟩ := hc
  rw [List.eq_of_mem_replicate hl] at hc
  revert hc
  revert c
  decide

theorem map_map_append (o : Option Str) (a b : Str) : (o.map (a ++ ·)).map (b ++ ·) = o.map ((b ++ a) ++ ·) := by
  cases o <;> simp

mutual
theorem write_elem : ∀ (e : Elem) (ind : Nat) (lt : Bool) (rest : Str), e.Named → (rest = [] ∨ rest.head? = some '<') →
    (e.Writable → pretty ind lt (toString e ++ rest) =
      (pretty ind (decide (e.tail ≠ [])) rest).map (flat (out ind e) ++ ·)) ∧
    (¬ e.Writable → pretty ind lt (toString e ++ rest) = none)
  | .mk tag attrs text kids tail, ind, lt, rest, hn, hrest => by
    rw [Elem.Named] at hn
    obtain ⟨ht, ha, hk⟩ := hn
    have hchars := fun x => headText_chars ht ha (x := x)
    have hlast := fun l => headText_last (attrs := attrs) ht (l := l)
    obtain ⟨c, r, hcr⟩ : ∃ c r, tag = c :: r := by
      cases tag with
      | nil => exact absurd rfl ht.1
      | cons c r => exact ⟨c, r, rfl⟩
    have hhead : headText tag attrs = c :: (r ++ attrs.flatMap attrText) := by
      unfold headText; rw [hcr]; rfl
    have hc : c ≠ '/' := (nameChar_facts (ht.2 c (by rw [hcr]; simp))).2.2.1
    have hang : ∀ x ∈ r ++ attrs.flatMap attrText, notAngle x = true := by
      intro x hx
      have := hchars x (by rw [hhead]; exact List.mem_cons_of_mem _ hx)
      unfold notAngle
      simp [this.1, this.2.1]
    have htail : tail.flatMap escText ++ rest = [] ∨ (tail.flatMap escText ++ rest).head? ≠ some '>' := by
      cases h : tail.flatMap escText with
      | nil =>
        rw [List.nil_append]
        rcases hrest with h | h
        · exact .inl h
        · exact .inr (by rw [h]; decide)
      | cons x xs =>
        right
        rw [List.cons_append, List.head?_cons]
        intro he
        injection he with he
        exact (escText_text (s := tail) (x := x) (by rw [h]; simp)).2 he
    have htail' : (tail.flatMap escText ++ rest).head? ≠ some '>' := by
      rcases htail with h | h
      · rw [h]; simp
      · exact h
    rw [Elem.Writable, toString]
    simp only [Elem.tail]
    by_cases hemp : text = [] ∧ kids = []
    · obtain ⟨rfl, rfl⟩ := hemp
      rw [if_pos ⟨rfl, rfl⟩, if_pos (by simp)]
      have hs : '<' :: headText tag attrs ++ " />".toList ++ tail.flatMap escText ++ rest =
          '<' :: c :: ((r ++ attrs.flatMap attrText ++ [' ']) ++ ['/']) ++ '>' :: (tail.flatMap escText ++ rest) := by
        rw [hhead]
        simp
      rw [hs]
      constructor
      · rintro ⟨hw, _⟩
        rw [pretty_simple hc ?_ (by simp) htail', pretty_text' hrest, map_map_append, out, if_pos ⟨rfl, rfl⟩]
        · simp only [Bool.false_and, Bool.or_false]
          congr 1
          funext x
          rw [hhead]
          simp [flat]
        · intro x hx
          rcases List.mem_append.1 hx with hx | hx
          · unfold plain
            rw [hang x hx]
            have := (hchars x (by rw [hhead]; exact List.mem_cons_of_mem _ hx)).2.2
            simp only [Bool.true_and, bne_iff_ne, ne_eq]
            intro he
            obtain ⟨a, hm, hsl⟩ := this he
            exact hw a hm hsl
          · simp only [List.mem_singleton] at hx
            subst hx; decide
      · intro hw
        have : ∃ a ∈ attrs, '/' ∈ a.2 := by
          simp only [allWritable, and_true] at hw
          simpa using hw
        obtain ⟨a, hm, hsl⟩ := this
        refine pretty_simple_slash hc ?_ ?_ htail'
        · intro x hx
          rcases List.mem_append.1 hx with hx | hx
          · exact hang x hx
          · simp only [List.mem_singleton] at hx
            subst hx; decide
        · have := slash_headText (tag := tag) hm hsl
          simp [this]
    · have hemp' : ¬ (text = [] ∧ kids.isEmpty = true) := by
        simpa [List.isEmpty_iff] using hemp
      rw [if_neg hemp, if_neg hemp']
      have hs : '<' :: headText tag attrs ++ '>' :: text.flatMap escText ++ toStrings kids ++ '<' :: '/' :: tag ++ ['>'] ++
            tail.flatMap escText ++ rest =
          '<' :: c :: (r ++ attrs.flatMap attrText) ++ '>' :: (text.flatMap escText ++ (toStrings kids ++
            ('<' :: '/' :: tag ++ '>' :: (tail.flatMap escText ++ rest)))) := by
        rw [hhead]
        simp
      rw [hs]
      obtain ⟨hk1, hk2⟩ := write_elems kids (ind + 1) (decide (text ≠ []))
        ('<' :: '/' :: tag ++ '>' :: (tail.flatMap escText ++ rest)) hk (.inr rfl)
      have hnext := toStrings_head kids (s := '<' :: '/' :: tag ++ '>' :: (tail.flatMap escText ++ rest)) (.inr rfl)
      -- the character after the start tag
      obtain ⟨x, xs, hx, hxg, hxl⟩ : ∃ x xs, text.flatMap escText ++ (toStrings kids ++
            ('<' :: '/' :: tag ++ '>' :: (tail.flatMap escText ++ rest))) = x :: xs ∧ x ≠ '>' ∧ (x ≠ '<' ↔ text ≠ []) := by
        cases htx : text.flatMap escText with
        | nil =>
          rw [List.nil_append]
          rcases hnext with h | h
          · simp at h
          · cases hy : toStrings kids ++ ('<' :: '/' :: tag ++ '>' :: (tail.flatMap escText ++ rest)) with
            | nil => rw [hy] at h; cases h
            | cons y ys =>
              rw [hy] at h
              simp only [List.head?_cons, Option.some.injEq] at h
              subst h
              refine ⟨'<', ys, rfl, by decide, ?_⟩
              simp [flatMap_escText_nil.1 htx]
        | cons y ys =>
          have := escText_text (s := text) (x := y) (by rw [htx]; simp)
          refine ⟨y, ys ++ (toStrings kids ++ ('<' :: '/' :: tag ++ '>' :: (tail.flatMap escText ++ rest))), by simp, this.2, ?_⟩
          have hne : text ≠ [] := by rintro rfl; cases htx
          simp [this.1, hne]
      by_cases hlen : tag.length ≥ 2 ∨ attrs ≠ []
      · have hr : r ++ attrs.flatMap attrText ≠ [] := by
          intro h
          rw [List.append_eq_nil_iff] at h
          rcases hlen with hl | hl
          · rw [hcr, h.1] at hl; simp at hl
          · cases attrs with
            | nil => exact hl rfl
            | cons a as =>
              have := h.2
              rw [List.flatMap_cons, List.append_eq_nil_iff] at this
              have h' := attrText_last a
              rw [this.1] at h'
              cases h'
        obtain ⟨l, hl⟩ : ∃ l, (r ++ attrs.flatMap attrText).getLast? = some l :=
          ⟨_, List.getLast?_eq_some_getLast hr⟩
        have hl' : l ≠ '/' := hlast l (by
          rw [hhead, show c :: (r ++ attrs.flatMap attrText) = [c] ++ (r ++ attrs.flatMap attrText) by rfl,
            getLast?_append_right _ hr]
          exact hl)
        rw [hx, pretty_begin hc hang hl hl' hxg, ← hx, pretty_text' hnext]
        simp only [Bool.false_and, Bool.or_false]
        constructor
        · rintro ⟨_, hw⟩
          rw [hk1 hw, pretty_end ht.1 ?_, pretty_text' hrest]
          · simp only [map_map_append, Bool.false_and, Bool.or_false, Nat.add_sub_cancel]
            congr 1
            funext y
            rw [out, if_neg hemp', hhead]
            simp only [flat, flat_append, List.append_assoc, List.cons_append, List.nil_append]
            have e1 : (if x ≠ '<' then ([] : Str) else ['\n']) ++ (strip (text.flatMap escText)) =
                if text = [] then ['\n'] else strip (text.flatMap escText) := by
              by_cases h : text = []
              · rw [if_neg (fun hc => (hxl.1 hc) h), if_pos h, h]
                rfl
              · rw [if_pos (hxl.2 h), if_neg h]
                rfl
            rw [← e1]
            simp [List.append_assoc]
          · intro y hy
            have := nameChar_facts (ht.2 y hy)
            unfold plain notAngle
            simp [this.1, this.2.1, this.2.2.1]
        · intro hw
          rw [hk2 fun h => hw ⟨hlen, h⟩]
          rfl
      · have hr : r ++ attrs.flatMap attrText = [] := by
          have h1 : attrs = [] := Classical.byContradiction fun h => hlen (.inr h)
          have h2 : r = [] := by
            cases r with
            | nil => rfl
            | cons y ys => exact absurd (.inl (by rw [hcr]; simp)) hlen
          rw [h1, h2]; rfl
        constructor
        · intro hw
          exact absurd hw.1 hlen
        · intro _
          rw [hr]
          exact pretty_begin_one hc (by rw [hx]; simpa using hxg)
theorem write_elems : ∀ (es : List Elem) (ind : Nat) (lt : Bool) (rest : Str), allNamed es →
    (rest = [] ∨ rest.head? = some '<') →
    (allWritable es → pretty ind lt (toStrings es ++ rest) = (pretty ind (endText lt es) rest).map (flat (outs ind es) ++ ·)) ∧
    (¬ allWritable es → pretty ind lt (toStrings es ++ rest) = none)
  | [], ind, lt, rest, _, _ => by
    constructor
    · intro _
      rw [toStrings, outs, endText]
      simp [flat]
    · intro h
      exact absurd trivial h
  | e :: es, ind, lt, rest, hn, hrest => by
    rw [allNamed] at hn
    have h1 := write_elem e ind lt (toStrings es ++ rest) hn.1 (toStrings_head es hrest)
    have h2 := write_elems es ind (decide (e.tail ≠ [])) rest hn.2 hrest
    rw [toStrings, allWritable, List.append_assoc, outs, endText]
    constructor
    · rintro ⟨hw1, hw2⟩
      rw [h1.1 hw1, h2.1 hw2, map_map_append, flat_append]
    · intro hw
      by_cases hw1 : e.Writable
      · rw [h1.1 hw1, h2.2 fun h => hw ⟨hw1, h⟩]
        rfl
      · exact h1.2 hw1
end

end Ccpp.XF
