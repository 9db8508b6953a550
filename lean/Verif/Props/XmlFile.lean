import Verif.Props.XmlTokens
/-!
# C65: XML files are read back as they were written
-/
namespace Ccpp.XF

/-! ## Cutting the written text -/

/-- Tags and characters. -/
def expand : List PT → List Tok
  | [] => []
  | .tag m :: ts => .tag m :: expand ts
  | .text s :: ts => s.map .chr ++ expand ts

theorem expand_append (a b : List PT) : expand (a ++ b) = expand a ++ expand b := by
  induction a with
  | nil => rfl
  | cons t a ih => cases t <;> simp [expand, ih]

theorem lex_text {s r : Str} (h : ∀ c ∈ s, c ≠ '<') : lex none (s ++ r) = (lex none r).map (s.map Tok.chr ++ ·) := by
  induction s with
  | nil => simp
  | cons c s ih =>
    rw [List.cons_append, lex, if_neg (h c (by simp)), ih fun x hx => h x (by simp [hx])]
    cases lex none r <;> rfl

theorem lex_tag {t m r : Str} (h : ∀ c ∈ m, c ≠ '<' ∧ c ≠ '>') :
    lex (some t) (m ++ '>' :: r) = (lex none r).map (Tok.tag (t ++ m) :: ·) := by
  induction m generalizing t with
  | nil => rw [List.nil_append, lex, if_neg (by decide), if_pos rfl, List.append_nil]
  | cons c m ih =>
    rw [List.cons_append, lex, if_neg (h c (by simp)).1, if_neg (h c (by simp)).2, ih fun x hx => h x (by simp [hx])]
    simp

/-- Tags and texts without brackets. -/
def Clean : PT → Prop
  | .tag m => ∀ c ∈ m, c ≠ '<' ∧ c ≠ '>'
  | .text s => ∀ c ∈ s, c ≠ '<'

theorem lex_flat {ts : List PT} (h : ∀ t ∈ ts, Clean t) : lex none (flat ts) = some (expand ts) := by
  induction ts with
  | nil => rfl
  | cons t ts ih =>
    have h1 := h t (by simp)
    have h2 := ih fun x hx => h x (by simp [hx])
    cases t with
    | tag m =>
      rw [flat, List.cons_append, lex, if_pos rfl, lex_tag h1, h2]
      rfl
    | text s =>
      rw [flat, lex_text h1, h2]
      rfl

theorem blank_clean {s : Str} (h : ∀ c ∈ s, isBlank c = true) : ∀ c ∈ s, c ≠ '<' := by
  rintro c hc rfl
  have := h '<' hc
  revert this
  decide

theorem strip_mem {s : Str} {c : Char} (h : c ∈ strip s) : c ∈ s := by
  obtain ⟨a, b, he, _, _⟩ := strip_split s
  rw [he]
  simp [h]

theorem strip_clean (s : Str) : ∀ c ∈ strip (s.flatMap escText), c ≠ '<' := fun _ hc => (escText_text (strip_mem hc)).1

theorem tag_clean {tag : Str} (ht : Name tag) : ∀ c ∈ '/' :: tag, c ≠ '<' ∧ c ≠ '>' := by
  intro c hc
  rcases List.mem_cons.1 hc with rfl | hc
  · decide
  · have := nameChar_facts (ht.2 c hc)
    exact ⟨this.1, this.2.1⟩

mutual
theorem out_clean : ∀ (e : Elem) (ind : Nat), e.Named → ∀ t ∈ out ind e, Clean t
  | .mk tag attrs text kids tail, ind, hn => by
    rw [Elem.Named] at hn
    obtain ⟨ht, ha, hk⟩ := hn
    have hh : ∀ c ∈ headText tag attrs, c ≠ '<' ∧ c ≠ '>' := fun c hc =>
      ⟨(headText_chars ht ha hc).1, (headText_chars ht ha hc).2.1⟩
    intro t hm
    rw [out] at hm
    rcases List.mem_append.1 hm with hm | hm
    · split at hm
      · simp only [List.mem_cons, List.not_mem_nil, or_false] at hm
        rcases hm with rfl | rfl | rfl
        · exact blank_clean (indent_blank ind)
        · intro c hc
          rcases List.mem_append.1 hc with hc | hc
          · exact hh c hc
          · simp only [List.mem_cons, List.not_mem_nil, or_false] at hc
            rcases hc with rfl | rfl <;> decide
        · exact blank_clean strip_newline
      · rcases List.mem_append.1 hm with hm | hm
        · rcases List.mem_append.1 hm with hm | hm
          · simp only [List.mem_cons, List.not_mem_nil, or_false] at hm
            rcases hm with rfl | rfl | rfl
            · exact blank_clean (indent_blank ind)
            · exact hh
            · show ∀ c ∈ (if text = [] then ['\n'] else strip (text.flatMap escText)), c ≠ '<'
              split
              · exact blank_clean strip_newline
              · exact strip_clean text
          · exact outs_clean kids (ind + 1) hk t hm
        · simp only [List.mem_cons, List.not_mem_nil, or_false] at hm
          rcases hm with rfl | rfl | rfl
          · show ∀ c ∈ (if endText (decide (text ≠ [])) kids = true then [] else indent ind), c ≠ '<'
            split
            · simp
            · exact blank_clean (indent_blank ind)
          · exact tag_clean ht
          · exact blank_clean strip_newline
    · simp only [List.mem_singleton] at hm
      subst hm
      exact strip_clean tail
theorem outs_clean : ∀ (es : List Elem) (ind : Nat), allNamed es → ∀ t ∈ outs ind es, Clean t
  | [], _, _ => by rw [outs]; simp
  | e :: es, ind, hn => by
    rw [allNamed] at hn
    intro t ht
    rw [outs] at ht
    rcases List.mem_append.1 ht with ht | ht
    · exact out_clean e ind hn.1 t ht
    · exact outs_clean es ind hn.2 t ht
end

/-! ## Putting the elements together -/

mutual
/-- `Same` before the entities are replaced. -/
def SameR : Elem → Elem → Prop
  | .mk tag attrs text kids tail, .mk tag' attrs' text' kids' tail' =>
    tag' = tag ∧ attrs' = attrs ∧ strip text' = strip (text.flatMap escText) ∧
      (kids = [] → text' = strip (text.flatMap escText)) ∧ allSameR kids kids' ∧ strip tail' = strip (tail.flatMap escText)
/-- The same for lists. -/
def allSameR : List Elem → List Elem → Prop
  | [], [] => True
  | e :: es, e' :: es' => SameR e e' ∧ allSameR es es'
  | _, _ => False
end

/-- Several characters. -/
def Elem.addTails : Elem → Str → Elem
  | .mk tag attrs text kids tail, s => .mk tag attrs text kids (tail ++ s)

/-- Several characters. -/
def Frame.addText (f : Frame) (s : Str) : Frame :=
  match f.kids with
  | [] => { f with text := f.text ++ s }
  | k :: ks => { f with kids := k.addTails s :: ks }

theorem build_text {f : Frame} {fs : List Frame} {s : Str} {ts : List Tok} :
    build (f :: fs) (s.map Tok.chr ++ ts) = build (f.addText s :: fs) ts := by
  induction s generalizing f with
  | nil =>
    congr 2
    obtain ⟨tag, attrs, text, kids⟩ := f
    cases kids with
    | nil => simp [Frame.addText]
    | cons k ks => cases k; simp [Frame.addText, Elem.addTails]
  | cons c s ih =>
    rw [List.map_cons, List.cons_append, build, ih]
    congr 2
    obtain ⟨tag, attrs, text, kids⟩ := f
    cases kids with
    | nil => simp [Frame.addText, Frame.addChar]
    | cons k ks => cases k; simp [Frame.addText, Frame.addChar, Elem.addTails, Elem.addTail]

theorem allSameR_snoc {k : Elem} : ∀ {ks l : List Elem}, allSameR ks (l ++ [k]) ↔
    ∃ ks0 e, ks = ks0 ++ [e] ∧ allSameR ks0 l ∧ SameR e k
  | [], [] => by simp [allSameR]
  | [], _ :: _ => by simp [allSameR]
  | e :: ks, [] => by
    rw [List.nil_append, allSameR]
    constructor
    · rintro ⟨h1, h2⟩
      cases ks with
      | nil => exact ⟨[], e, rfl, trivial, h1⟩
      | cons x xs => simp [allSameR] at h2
    · rintro ⟨ks0, e', h, h1, h2⟩
      cases ks0 with
      | nil =>
        rw [List.nil_append] at h
        injection h with h3 h4
        subst h3; subst h4
        exact ⟨h2, trivial⟩
      | cons x xs => simp [allSameR] at h1
  | e :: ks, x :: l => by
    rw [List.cons_append, allSameR, allSameR_snoc]
    constructor
    · rintro ⟨h1, ks0, e', rfl, h2, h3⟩
      exact ⟨e :: ks0, e', rfl, by rw [allSameR]; exact ⟨h1, h2⟩, h3⟩
    · rintro ⟨ks0, e', h, h1, h2⟩
      cases ks0 with
      | nil => simp [allSameR] at h1
      | cons y ys =>
        rw [List.cons_append] at h
        injection h with h3 h4
        subst h3
        rw [allSameR] at h1
        exact ⟨h1.1, ys, e', h4, h1.2, h2⟩

theorem addTails_same {e k : Elem} {s : Str} (h : SameR e k) (hs : ∀ c ∈ s, isBlank c = true) : SameR e (k.addTails s) := by
  cases e; cases k
  rw [Elem.addTails]
  rw [SameR] at h ⊢
  obtain ⟨h1, h2, h3, h4, h5, h6⟩ := h
  exact ⟨h1, h2, h3, h4, h5, by rw [strip_append_blank hs]; exact h6⟩

/-- The frame has this text and these sub-elements. -/
def Holds (f : Frame) (x : Str) (ks : List Elem) : Prop := strip f.text = strip x ∧ allSameR ks f.kids.reverse

theorem holds_blank {f : Frame} {x s : Str} {ks : List Elem} (h : Holds f x ks) (hs : ∀ c ∈ s, isBlank c = true) :
    Holds (f.addText s) x ks ∧ (f.addText s).tag = f.tag ∧ (f.addText s).attrs = f.attrs := by
  obtain ⟨tag, attrs, text, kids⟩ := f
  cases kids with
  | nil =>
    refine ⟨⟨?_, h.2⟩, rfl, rfl⟩
    show strip (text ++ s) = strip x
    rw [strip_append_blank hs]
    exact h.1
  | cons k ks' =>
    refine ⟨⟨h.1, ?_⟩, rfl, rfl⟩
    have h2 := h.2
    simp only [List.reverse_cons] at h2
    rw [allSameR_snoc] at h2
    obtain ⟨ks0, e, rfl, h3, h4⟩ := h2
    show allSameR (ks0 ++ [e]) (k.addTails s :: ks').reverse
    rw [List.reverse_cons, allSameR_snoc]
    exact ⟨ks0, e, rfl, h3, addTails_same h4 hs⟩

/-- After an element: the text after it. -/
theorem holds_push {f : Frame} {x : Str} {ks : List Elem} (h : Holds f x ks) {e : Elem} {tag : Str}
    {attrs : List (Str × Str)} {text : Str} {kids : List Elem} (hs : ∀ tl, strip tl = strip (e.tail.flatMap escText) →
      SameR e (.mk tag attrs text kids tl)) {fs : List Frame} {ts : List Tok} :
    ∃ f' : Frame, build ({ f with kids := .mk tag attrs text kids [] :: f.kids } :: fs)
        (expand [.text ['\n'], .text (strip (e.tail.flatMap escText))] ++ ts) = build (f' :: fs) ts ∧
      Holds f' x (ks ++ [e]) ∧ f'.tag = f.tag ∧ f'.attrs = f.attrs := by
  refine ⟨{ f with kids := .mk tag attrs text kids (['\n'] ++ strip (e.tail.flatMap escText)) :: f.kids }, ?_, ?_, rfl, rfl⟩
  · simp only [expand, List.append_nil, List.append_assoc]
    rw [build_text, build_text]
    simp [Frame.addText, Elem.addTails]
  · refine ⟨h.1, ?_⟩
    simp only [List.reverse_cons]
    rw [allSameR_snoc]
    refine ⟨ks, e, rfl, h.2, hs _ ?_⟩
    rw [strip_blank_append strip_newline, strip_idem]

theorem headText_not_slash {tag : Str} {attrs : List (Str × Str)} (ht : Name tag) (n b : Str) :
    headText tag attrs ++ b ≠ '/' :: n := by
  intro h
  cases tag with
  | nil => exact absurd rfl ht.1
  | cons c r =>
    unfold headText at h
    simp only [List.cons_append] at h
    injection h with h _
    exact (nameChar_facts (ht.2 c (by simp))).2.2.1 h

theorem build_begin {f : Frame} {fs : List Frame} {tag : Str} {attrs : List (Str × Str)} (ht : Name tag)
    (ha : ∀ a ∈ attrs, Name a.1) {ts : List Tok} :
    build (f :: fs) (.tag (headText tag attrs) :: ts) = build (⟨tag, attrs, [], []⟩ :: f :: fs) ts := by
  rw [build]
  · rw [if_neg fun h => headText_last ht h rfl]
    have := read_head ht ha (b := []) (by simp)
    rw [List.append_nil] at this
    rw [this]
    rfl
  · intro n h
    exact headText_not_slash ht n [] (by rw [List.append_nil]; exact h)

theorem build_empty {f : Frame} {fs : List Frame} {tag : Str} {attrs : List (Str × Str)} (ht : Name tag)
    (ha : ∀ a ∈ attrs, Name a.1) {ts : List Tok} :
    build (f :: fs) (.tag (headText tag attrs ++ [' ', '/']) :: ts) =
      build ({ f with kids := .mk tag attrs [] [] [] :: f.kids } :: fs) ts := by
  have e : headText tag attrs ++ [' ', '/'] = (headText tag attrs ++ [' ']) ++ ['/'] := by simp
  rw [build]
  · rw [e, if_pos (by rw [getLast?_append_right _ (by simp)]; rfl), List.dropLast_concat]
    rw [read_head ht ha (b := [' ']) (by decide)]
    rfl
  · intro n h
    exact headText_not_slash ht n _ h

theorem build_close {g : Frame} {fs : List Frame} {tag : Str} {attrs : List (Str × Str)} {text : Str} {kids : List Elem}
    {ts : List Tok} : build (⟨tag, attrs, text, kids⟩ :: g :: fs) (.tag ('/' :: tag) :: ts) =
      build ({ g with kids := .mk tag attrs text kids.reverse [] :: g.kids } :: fs) ts := by
  rw [build, if_pos rfl]

mutual
theorem build_elem : ∀ (e : Elem) (ind : Nat) (f : Frame) (fs : List Frame) (ts : List Tok) (x : Str) (ks : List Elem),
    e.Named → Holds f x ks → ∃ f' : Frame, build (f :: fs) (expand (out ind e) ++ ts) = build (f' :: fs) ts ∧
      Holds f' x (ks ++ [e]) ∧ f'.tag = f.tag ∧ f'.attrs = f.attrs
  | .mk tag attrs text kids tail, ind, f, fs, ts, x, ks, hn, hh => by
    rw [Elem.Named] at hn
    obtain ⟨ht, ha, hk⟩ := hn
    obtain ⟨h1, h2, h3⟩ := holds_blank hh (indent_blank ind)
    rw [out]
    by_cases hemp : text = [] ∧ kids.isEmpty = true
    · rw [if_pos hemp]
      obtain ⟨rfl, hkk⟩ := hemp
      rw [List.isEmpty_iff] at hkk
      subst hkk
      obtain ⟨f', hb, hf, h4, h5⟩ := holds_push (e := .mk tag attrs [] [] tail) h1 (tag := tag) (attrs := attrs) (text := [])
        (kids := []) (fun tl htl => by rw [SameR]; exact ⟨rfl, rfl, rfl, fun _ => rfl, trivial, htl⟩) (fs := fs) (ts := ts)
      refine ⟨f', ?_, hf, h4.trans h2, h5.trans h3⟩
      rw [← hb]
      simp only [expand_append, expand, List.append_assoc, List.cons_append, List.nil_append, List.append_nil]
      rw [build_text, build_empty ht ha]
      rfl
    · rw [if_neg hemp]
      -- the frame of the new element after its text
      have hg : Holds ⟨tag, attrs, if text = [] then ['\n'] else strip (text.flatMap escText), []⟩
          (text.flatMap escText) [] := by
        refine ⟨?_, trivial⟩
        show strip (if text = [] then ['\n'] else strip (text.flatMap escText)) = _
        split
        · rename_i h; rw [h]; rfl
        · exact strip_idem _
      obtain ⟨g, hb, hgk, hgt, hga⟩ := build_elems kids (ind + 1)
        ⟨tag, attrs, if text = [] then ['\n'] else strip (text.flatMap escText), []⟩ (f.addText (indent ind) :: fs)
        (expand [.text (if endText (decide (text ≠ [])) kids = true then [] else indent ind), .tag ('/' :: tag),
          .text ['\n'], .text (strip (tail.flatMap escText))] ++ ts) _ [] hk hg
      rw [List.nil_append] at hgk
      -- blanks before the end tag
      have hend : ∃ s : Str × List Elem, g.addText (if endText (decide (text ≠ [])) kids = true then [] else indent ind) = ⟨tag, attrs, s.1, s.2⟩ ∧
          strip s.1 = strip (text.flatMap escText) ∧ allSameR kids s.2.reverse ∧
          (kids = [] → s.1 = strip (text.flatMap escText)) := by
        have hbl : ∀ c ∈ (if endText (decide (text ≠ [])) kids = true then [] else indent ind), isBlank c = true := by
          split
          · simp
          · exact indent_blank ind
        obtain ⟨i1, i2, i3⟩ := holds_blank hgk hbl
        refine ⟨(_, (g.addText _).kids), ?_, i1.1, i1.2, ?_⟩
        · have e1 := i2.trans hgt
          have e2 := i3.trans hga
          revert e1 e2
          generalize g.addText (if endText (decide (text ≠ [])) kids = true then [] else indent ind) = w
          obtain ⟨w1, w2, w3, w4⟩ := w
          intro e1 e2
          cases e1
          cases e2
          rfl
        · intro hkn
          subst hkn
          have htx : text ≠ [] := fun h => hemp ⟨h, rfl⟩
          have hg0 : g = ⟨tag, attrs, if text = [] then ['\n'] else strip (text.flatMap escText), []⟩ := by
            exact hb.2 rfl
          rw [hg0]
          simp [Frame.addText, endText, htx]
      obtain ⟨⟨s1, s2⟩, hg', i1, i2, i3⟩ := hend
      obtain ⟨f', hb', hf, h4, h5⟩ := holds_push (e := .mk tag attrs text kids tail) h1 (tag := tag) (attrs := attrs)
        (text := s1) (kids := s2.reverse) (fun tl htl => by rw [SameR]; exact ⟨rfl, rfl, i1, i3, i2, htl⟩) (fs := fs) (ts := ts)
      refine ⟨f', ?_, hf, h4.trans h2, h5.trans h3⟩
      rw [← hb']
      simp only [expand_append, expand, List.append_assoc, List.cons_append, List.nil_append, List.append_nil] at hb ⊢
      rw [build_text, build_begin ht ha, build_text]
      have he : (Frame.mk tag attrs [] []).addText (if text = [] then ['\n'] else strip (text.flatMap escText)) =
          ⟨tag, attrs, if text = [] then ['\n'] else strip (text.flatMap escText), []⟩ := rfl
      rw [he, hb.1, build_text, hg', build_close]
      rfl
theorem build_elems : ∀ (es : List Elem) (ind : Nat) (f : Frame) (fs : List Frame) (ts : List Tok) (x : Str) (ks : List Elem),
    allNamed es → Holds f x ks → ∃ f' : Frame, (build (f :: fs) (expand (outs ind es) ++ ts) = build (f' :: fs) ts ∧
      (es = [] → f' = f)) ∧ Holds f' x (ks ++ es) ∧ f'.tag = f.tag ∧ f'.attrs = f.attrs
  | [], ind, f, fs, ts, x, ks, _, hh => ⟨f, ⟨by rw [outs]; rfl, fun _ => rfl⟩, by rw [List.append_nil]; exact hh, rfl, rfl⟩
  | e :: es, ind, f, fs, ts, x, ks, hn, hh => by
    rw [allNamed] at hn
    obtain ⟨g, h1, h2, h3, h4⟩ := build_elem e ind f fs (expand (outs ind es) ++ ts) x ks hn.1 hh
    obtain ⟨f', h5, h6, h7, h8⟩ := build_elems es ind g fs ts x (ks ++ [e]) hn.2 h2
    refine ⟨f', ⟨?_, fun h => by cases h⟩, ?_, h7.trans h3, h8.trans h4⟩
    · rw [outs, expand_append, List.append_assoc, h1, h5.1]
    · rw [List.append_assoc] at h6
      exact h6
end

/-! ## Entities -/

mutual
theorem decode_same : ∀ (e e' : Elem), SameR e e' → ∃ d, decode e' = some d ∧ Same e d
  | .mk tag attrs text kids tail, .mk tag' attrs' text' kids' tail', h => by
    rw [SameR] at h
    obtain ⟨rfl, rfl, h1, h2, h3, h4⟩ := h
    obtain ⟨u, hu, hs, he⟩ := unesc_same h1
    obtain ⟨v, hv, hs', _⟩ := unesc_same h4
    obtain ⟨ks, hk, hsk⟩ := decodes_same kids kids' h3
    refine ⟨.mk tag' attrs' u ks v, ?_, ?_⟩
    · rw [decode, hu, hk, hv]
      rfl
    · rw [Same]
      exact ⟨rfl, rfl, hs, fun hn => he (h2 hn), hsk, hs'⟩
theorem decodes_same : ∀ (es es' : List Elem), allSameR es es' → ∃ ds, decodes es' = some ds ∧ allSame es ds
  | [], [], _ => ⟨[], by rw [decodes], by rw [allSame]; trivial⟩
  | e :: es, e' :: es', h => by
    rw [allSameR] at h
    obtain ⟨d, hd, hs⟩ := decode_same e e' h.1
    obtain ⟨ds, hds, hss⟩ := decodes_same es es' h.2
    refine ⟨d :: ds, ?_, ?_⟩
    · rw [decodes, hd, hds]
      rfl
    · rw [allSame]
      exact ⟨hs, hss⟩
  | [], _ :: _, h => by simp [allSameR] at h
  | _ :: _, [], h => by simp [allSameR] at h
end

/-! ## The file -/

theorem toString_trim {e : Elem} (ht : e.tail = []) : strip (toString e) = toString e := by
  obtain ⟨tag, attrs, text, kids, tail⟩ := e
  have ht : tail = [] := ht
  subst ht
  have : Trim (toString (.mk tag attrs text kids [])) := by
    constructor
    · intro c hc
      have := toString_head (.mk tag attrs text kids []) []
      rw [List.append_nil] at this
      rw [this] at hc
      injection hc with hc
      subst hc
      decide
    · intro c hc
      rw [toString] at hc
      simp only [List.flatMap_nil, List.append_nil] at hc
      have : c = '>' := by
        split at hc
        · rw [getLast?_append_right _ (by decide)] at hc
          injection hc with hc
          exact hc.symm
        · rw [getLast?_append_right _ (by simp)] at hc
          injection hc with hc
          exact hc.symm
      subst this
      decide
  have h := strip_of_trim (a := []) (b := []) (by simp) (by simp) this
  simpa using h

theorem write_eq {e : Elem} (hn : e.Named) (ht : e.tail = []) :
    (e.Writable → write e = some (flat (out 0 e))) ∧ (¬ e.Writable → write e = none) := by
  have h := write_elem e 0 false [] hn (Or.inl rfl)
  rw [List.append_nil] at h
  have hw : write e = pretty 0 false (toString e) := by
    unfold write pretty
    rw [toString_trim ht]
  rw [hw]
  refine ⟨fun hw => ?_, h.2⟩
  rw [h.1 hw, pretty_nil]
  simp

theorem read_out {e : Elem} (hn : e.Named) (ht : e.tail = []) : ∃ e', read (flat (out 0 e)) = some e' ∧ Same e e' := by
  obtain ⟨f', hb, hh, _, _⟩ := build_elem e 0 ⟨[], [], [], []⟩ [] [] [] [] hn ⟨rfl, trivial⟩
  rw [List.append_nil] at hb
  obtain ⟨tag, attrs, text, kids⟩ := f'
  obtain ⟨h1, h2⟩ := hh
  rw [List.nil_append] at h2
  have hbl : ∀ {s : Str}, strip s = [] → s.all isBlank = true := by
    intro s hs
    obtain ⟨a, b, he, ha, hb⟩ := strip_split s
    rw [he, hs, List.append_nil]
    rw [List.all_append, List.all_eq_true.2 ha, List.all_eq_true.2 hb]
    rfl
  have h1 : text.all isBlank = true := hbl h1
  rw [build, if_pos h1] at hb
  obtain ⟨etag, eattrs, etext, ekids, etail⟩ := e
  have ht : etail = [] := ht
  subst ht
  simp only at h2
  generalize kids.reverse = l at hb h2
  match l, h2 with
  | [], h2 => simp [allSameR] at h2
  | _ :: _ :: _, h2 => simp [allSameR] at h2
  | [.mk tag' attrs' text' kids' tail'], h2 =>
    rw [allSameR] at h2
    have h3 := h2.1
    rw [SameR] at h3
    have h4 : SameR (.mk etag eattrs etext ekids []) (.mk tag' attrs' text' kids' []) := by
      rw [SameR]
      exact ⟨h3.1, h3.2.1, h3.2.2.1, h3.2.2.2.1, h3.2.2.2.2.1, rfl⟩
    obtain ⟨d, hd, hs⟩ := decode_same _ _ h4
    refine ⟨d, ?_, hs⟩
    unfold read
    rw [lex_flat (out_clean _ 0 hn)]
    show (match build [⟨[], [], [], []⟩] (expand (out 0 (.mk etag eattrs etext ekids []))) with
      | some [.mk tag attrs text kids tail] => if tail.all isBlank then decode (.mk tag attrs text kids []) else none
      | _ => none) = some d
    rw [hb]
    show (if tail'.all isBlank then decode (.mk tag' attrs' text' kids' []) else none) = some d
    rw [if_pos (hbl h3.2.2.2.2.2), hd]

/-- C65: a file that was written is read back with the same elements. -/
theorem C65_read_back {e : Elem} {s : Str} (hn : e.Named) (ht : e.tail = []) (h : write e = some s) :
    ∃ e', read s = some e' ∧ Same e e' := by
  by_cases hw : e.Writable
  · rw [(write_eq hn ht).1 hw] at h
    injection h with h
    rw [← h]
    exact read_out hn ht
  · rw [(write_eq hn ht).2 hw] at h
    cases h

/-- C65, what is missing: exactly the writable trees can be written. -/
theorem C65_written_partial {e : Elem} (hn : e.Named) (ht : e.tail = []) : (∃ s, write e = some s) ↔ e.Writable := by
  constructor
  · rintro ⟨s, h⟩
    refine Classical.byContradiction fun hw => ?_
    rw [(write_eq hn ht).2 hw] at h
    cases h
  · intro hw
    exact ⟨_, (write_eq hn ht).1 hw⟩

end Ccpp.XF
