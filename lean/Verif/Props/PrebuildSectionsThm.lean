import Verif.Props.PrebuildSectionsMain
/-!
# The sections of arrays (C76): the theorems
-/
namespace Ccpp.SC
open PB (Str IsName IsLiteral joined splitOn joinWith_eq joined_cons splitOn_none splitOn_append)
open PA (HVar find)

variable {h : List HVar} {run : Bool} {v : Req}

theorem mapM_forall2 {α β : Type} {f : α → Option β} : ∀ {l : List α} {r : List β}, l.mapM f = some r ↔ List.Forall₂ (fun a b => f a = some b) l r
  | [], r => by
    rw [List.mapM_nil, List.forall₂_nil_left_iff]
    exact ⟨fun h => (Option.some.inj h).symm, fun h => h ▸ rfl⟩
  | a :: l, r => by
    rw [List.mapM_cons, List.forall₂_cons_left_iff]
    constructor
    · intro h
      obtain ⟨b, hb, h⟩ := Option.bind_eq_some_iff.1 h
      obtain ⟨t, ht, h⟩ := Option.bind_eq_some_iff.1 h
      cases h
      exact ⟨b, t, hb, mapM_forall2.1 ht, rfl⟩
    · rintro ⟨b, t, hb, ht, rfl⟩
      rw [hb, mapM_forall2.2 ht]; rfl

/-! ## The subscripts -/

theorem parens_eq {x : List Str} (hne : x ≠ []) (hl : (joined ',' x).getLast? ≠ some ',') : parens x = '(' :: (joined ',' x ++ [')']) := by
  have e : ∀ {x : List Str}, x ≠ [] → x.flatMap (· ++ [',']) = joined ',' x ++ [','] := by
    intro x
    induction x with
    | nil => intro h; exact absurd rfl h
    | cons a l ih =>
      intro _
      cases l with
      | nil => simp [joined]
      | cons b l => rw [List.flatMap_cons, ih (by simp), joined_cons (l := b :: l) (by simp)]; simp
  unfold parens rstripCommas
  rw [e hne, ← List.cons_append, List.reverse_append, List.reverse_singleton, List.singleton_append, List.dropWhile_cons_of_pos (by simp)]
  have : ∀ {s : Str}, s.getLast? ≠ some ',' → (s.reverse.dropWhile (· == ',')) = s.reverse := by
    intro s hs
    rcases List.eq_nil_or_concat s with rfl | ⟨t, c, rfl⟩
    · rfl
    · rw [List.concat_eq_append] at hs ⊢
      rw [List.reverse_append, List.reverse_singleton, List.singleton_append, List.dropWhile_cons_of_neg]
      intro hc
      apply hs
      rw [List.getLast?_concat]
      simpa using hc
  rw [this]
  · simp
  · cases hj : joined ',' x with
    | nil => decide
    | cons a t => rw [hj] at hl; rw [List.getLast?_cons_cons]; exact hl

theorem merge_plain {t : Str} {ts subs : List Str} (ht : ':' ∉ t) : merge (t :: ts) subs = (merge ts subs).map fun r => (t :: r.1, r.2) := by
  cases subs <;> simp [merge, ht]

theorem merge_colon {t s : Str} {ts subs : List Str} (ht : ':' ∈ t) : merge (t :: ts) (s :: subs) = (merge ts subs).map fun r => (s :: r.1, s :: r.2) := by
  simp [merge, ht]

theorem merge_colon_nil {t : Str} {ts : List Str} (ht : ':' ∈ t) : merge (t :: ts) [] = none := by
  simp [merge, ht]

theorem merge_append {p rest subs : List Str} (hp : ∀ t ∈ p, ':' ∉ t) : merge (p ++ rest) subs = (merge rest subs).map fun r => (p ++ r.1, r.2) := by
  induction p with
  | nil => cases h : merge rest subs <;> simp [h]
  | cons t p ih =>
    rw [List.cons_append, merge_plain (hp t (by simp)), ih fun x hx => hp x (by simp [hx])]
    cases merge rest subs <;> simp

theorem merge_fills : ∀ {l w s : List Sub}, (∀ x ∈ l, SubOk x) → Fills l w s →
    ∃ x, merge (l.flatMap pieces) (w.map Sub.text) = some (x, w.map Sub.text) ∧ joined ',' x = joined ',' (s.map Sub.text) ∧ (x = [] ↔ s = [])
  | _, _, _, _, .nil => ⟨[], rfl, rfl, by simp⟩
  | .index e :: l, w, .index _ :: s, ho, .index hf => by
    obtain ⟨x, h1, h2, h3⟩ := merge_fills (fun y hy => ho y (List.mem_cons_of_mem _ hy)) hf
    have hi := ho (.index e) (by simp)
    have hp : ∀ t ∈ pieces (.index e), ':' ∉ t := fun t ht hc => hi.2.2.1 (mem_splitOn ht hc)
    refine ⟨pieces (.index e) ++ x, ?_, ?_, ?_⟩
    · rw [List.flatMap_cons, merge_append hp, h1]; rfl
    · obtain ⟨p1, p2⟩ := joined_splitOn ',' e
      by_cases hx : x = []
      · have hs := h3.1 hx
        subst hx hs
        simp only [List.append_nil, List.map_cons, List.map_nil, joined]
        exact p2
      · rw [joined_append (a := pieces (.index e)) p1 hx, h2, List.map_cons, joined_cons (by simpa using fun hs => hx (h3.2 hs))]
        show joined ',' (splitOn ',' e) ++ _ = _
        rw [p2]; rfl
    · have : pieces (.index e) ≠ [] := (joined_splitOn ',' e).1
      simp [this]
  | .range _ _ :: l, y :: w, _ :: s, ho, .range hf => by
    obtain ⟨x, h1, h2, h3⟩ := merge_fills (fun y hy => ho y (List.mem_cons_of_mem _ hy)) hf
    refine ⟨y.text :: x, ?_, ?_, by simp⟩
    · rw [List.flatMap_cons]
      have : pieces (.range [] []) = [[':']] := rfl
      rw [this, List.singleton_append, List.map_cons, merge_colon (by simp), h1]; rfl
    · by_cases hx : x = []
      · have hs := h3.1 hx
        subst hx hs
        rfl
      · rw [joined_cons hx, h2, List.map_cons, joined_cons (by simpa using fun hs => hx (h3.2 hs))]

theorem fills_merge : ∀ {l w : List Sub} {r : List Str × List Str}, (∀ x ∈ l, SubOk x) → merge (l.flatMap pieces) (w.map Sub.text) = some r → ∃ s, Fills l w s
  | [], [], _, _, _ => ⟨[], .nil⟩
  | [], _ :: _, _, _, hm => by cases hm
  | .index e :: l, w, r, ho, hm => by
    have hi := ho (.index e) (by simp)
    have hp : ∀ t ∈ pieces (.index e), ':' ∉ t := fun t ht hc => hi.2.2.1 (mem_splitOn ht hc)
    rw [List.flatMap_cons, merge_append hp, Option.map_eq_some_iff] at hm
    obtain ⟨r', hr, _⟩ := hm
    obtain ⟨s, hs⟩ := fills_merge (fun y hy => ho y (List.mem_cons_of_mem _ hy)) hr
    exact ⟨_, .index hs⟩
  | .range a b :: l, w, r, ho, hm => by
    obtain ⟨rfl, rfl⟩ : a = [] ∧ b = [] := ho (.range a b) (by simp)
    have : pieces (.range [] []) = [[':']] := rfl
    rw [List.flatMap_cons, this, List.singleton_append] at hm
    cases w with
    | nil => rw [List.map_nil, merge_colon_nil (by simp)] at hm; cases hm
    | cons y w =>
      rw [List.map_cons, merge_colon (by simp), Option.map_eq_some_iff] at hm
      obtain ⟨r', hr, _⟩ := hm
      obtain ⟨s, hs⟩ := fills_merge (fun y hy => ho y (List.mem_cons_of_mem _ hy)) hr
      exact ⟨_, .range hs⟩

theorem fills_det : ∀ {l w s s' : List Sub}, Fills l w s → Fills l w s' → s = s'
  | _, _, _, _, .nil, .nil => rfl
  | _, _, _, _, .index a, .index b => by rw [fills_det a b]
  | _, _, _, _, .range a, .range b => by rw [fills_det a b]

theorem fills_mem : ∀ {l w s : List Sub}, Fills l w s → ∀ x ∈ s, x ∈ l ∨ x ∈ w
  | _, _, _, .nil, x, hx => by cases hx
  | _, _, _, .index (e := e) a, x, hx => by
    rcases List.mem_cons.1 hx with rfl | hx
    · simp
    · rcases fills_mem a x hx with h | h <;> simp [h]
  | _, _, _, .range (s := y) a, x, hx => by
    rcases List.mem_cons.1 hx with rfl | hx
    · simp
    · rcases fills_mem a x hx with h | h <;> simp [h]

theorem fills_nil {w s : List Sub} (h : Fills [] w s) : w = [] ∧ s = [] := by cases h; exact ⟨rfl, rfl⟩

theorem fills_ne {l w s : List Sub} (h : Fills l w s) (hl : l ≠ []) : s ≠ [] := by
  cases h <;> simp at hl ⊢

/-! ## The dimensions of an argument -/

theorem asks_last (ho : HostOk h) {std d lo hi : Str} {part : Bool} (ha : Asks h run std d lo hi part) : hi.getLast? ≠ some ',' := by
  have hn : ∀ {n}, Names h n hi → hi.getLast? ≠ some ',' := by
    rintro n ⟨v, h1, _, rfl⟩; exact ho.locs v h1
  cases ha with
  | part _ _ _ _ _ _ _ _ _ h2 => exact hn h2
  | block _ _ _ _ _ _ _ _ h2 => exact hn h2
  | plain _ _ _ _ _ _ h2 =>
    rcases h2 with ⟨h1, rfl⟩ | ⟨_, v, h1, h3, rfl⟩
    · intro hl
      exact (PB.word_not ((PB.word_chars (.inl h1)).2 _ (List.mem_of_getLast? hl))).2.2.1 rfl
    · exact ho.locs v h1

theorem wants_text (ho : HostOk h) {d : Str} {s : Sub} (hw : Wants h run v d s) : s.text ≠ [] ∧ s.text.getLast? ≠ some ',' := by
  obtain ⟨lo, hi, part, ha, rfl⟩ := hw
  split
  · simp [Sub.text]
  · refine ⟨by simp [Sub.text], ?_⟩
    have := asks_last ho ha
    simp only [Sub.text]
    rw [List.getLast?_append]
    cases hi with
    | nil => simp
    | cons a t => rw [List.getLast?_cons_cons, List.getLast?_eq_some_getLast (by simp)] at *; simpa using this

theorem dims_iff (ho : HostOk h) (hq : ReqOk h run v) : ∀ {w : List Sub}, List.Forall₂ (Wants h run v) v.dims w ↔
    ∃ ds, v.dims.mapM (dimOf h run v.char v.std) = some ds ∧ w = ds.map fun d => if d.explicit then Sub.range d.lo d.hi else Sub.range [] [] := by
  intro w
  have key : ∀ {l : List Str}, (∀ d ∈ l, d ∈ v.dims) → ∀ {w : List Sub}, List.Forall₂ (Wants h run v) l w ↔
      ∃ ds, List.Forall₂ (fun a b => dimOf h run v.char v.std a = some b) l ds ∧ w = ds.map fun d => if d.explicit then Sub.range d.lo d.hi else Sub.range [] [] := by
    intro l
    induction l with
    | nil =>
      intro _ w
      simp only [List.forall₂_nil_left_iff]
      exact ⟨fun hw => ⟨[], rfl, hw⟩, fun ⟨ds, h1, h2⟩ => by subst h1; exact h2⟩
    | cons d l ih =>
      intro hl w
      have hd := fun x => dimOf_iff (x := x) (run := run) (char := v.char) (std := v.std) ho (hq.dims d (hl d (by simp)))
      rw [List.forall₂_cons_left_iff]
      constructor
      · rintro ⟨s, t, ⟨lo, hi, part, ha, hs⟩, ht, rfl⟩
        obtain ⟨ds, h1, h2⟩ := (ih fun x hx => hl x (List.mem_cons_of_mem _ hx)).1 ht
        refine ⟨⟨lo, hi, !v.char || part⟩ :: ds, .cons ((hd _).2 ⟨lo, hi, part, ha, rfl⟩) h1, ?_⟩
        rw [List.map_cons, ← h2, hs]
        cases v.char <;> cases part <;> rfl
      · rintro ⟨ds, h1, rfl⟩
        rw [List.forall₂_cons_left_iff] at h1
        obtain ⟨x, ds, h1, h2, rfl⟩ := h1
        obtain ⟨lo, hi, part, ha, rfl⟩ := (hd _).1 h1
        refine ⟨_, _, ⟨lo, hi, part, ha, rfl⟩, (ih fun x hx => hl x (List.mem_cons_of_mem _ hx)).2 ⟨ds, h2, rfl⟩, ?_⟩
        rw [List.map_cons]
        cases v.char <;> cases part <;> rfl
  rw [key fun d hd => hd]
  simp only [mapM_forall2]

theorem dims_text (ho : HostOk h) (hq : ReqOk h run v) {ds : List Dim} (hm : v.dims.mapM (dimOf h run v.char v.std) = some ds) :
    ds.map Dim.text = (ds.map fun d => if d.explicit then Sub.range d.lo d.hi else Sub.range [] []).map Sub.text := by
  rw [List.map_map]
  apply List.map_congr_left
  intro x hx
  obtain ⟨i, hi⟩ := List.mem_iff_getElem?.1 hx
  have hf := mapM_forall2.1 hm
  obtain ⟨d, hd, hdx⟩ : ∃ d ∈ v.dims, dimOf h run v.char v.std d = some x := by
    rw [List.forall₂_iff_get] at hf
    obtain ⟨hlt, hget⟩ := List.getElem?_eq_some_iff.1 hi
    refine ⟨_, List.getElem_mem (by rw [hf.1]; exact hlt), ?_⟩
    have := hf.2 i (by rw [hf.1]; exact hlt) hlt
    simp only [List.get_eq_getElem] at this
    rw [this, hget]
  obtain ⟨lo, hi', part, ha, rfl⟩ := (dimOf_iff ho (hq.dims d hd)).1 hdx
  have hne := hq.differ d hd lo hi' part ha
  simp only [Function.comp, Dim.text, if_neg hne]
  split <;> rfl

/-- **C76**: what is passed, for all hosts, all local names and all dimensions: the reference of the host, in which the whole dimensions are
replaced in order by the ranges that the scheme asks for; exceptions exactly if the scheme asks for something that the host does not have, or
for another number of dimensions.  Missing: local names with ranges or repeated subscripts, and dimensions with equal bounds (see the violations). -/
theorem C76_section_partial (ho : HostOk h) {r : Ref} (hr : RefOk r) (hrv : r.text = v.target) (hq : ReqOk h run v) {t : List Char} :
    passed h run v = some t ↔ ∃ w s, List.Forall₂ (Wants h run v) v.dims w ∧
      (if v.dims = [] then s = r.subs else if r.subs = [] then s = w else Fills r.subs w s) ∧ t = Ref.text { r with subs := s } := by
  unfold passed section_
  rw [← hrv, base_ref hr, extractDims_ref hr]
  by_cases hd : v.dims = []
  · simp only [hd, if_true, Option.map_some, Option.some.injEq]
    constructor
    · rintro rfl; exact ⟨[], r.subs, .nil, rfl, rfl⟩
    · rintro ⟨w, s, _, rfl, rfl⟩; rfl
  simp only [hd, if_false]
  rw [Option.map_eq_some_iff]
  simp only [Option.bind_eq_some_iff]
  have wtext : ∀ {w : List Sub}, List.Forall₂ (Wants h run v) v.dims w → ∀ x ∈ w, x.text ≠ [] ∧ x.text.getLast? ≠ some ',' := by
    intro w hw x hx
    obtain ⟨i, hi⟩ := List.mem_iff_getElem?.1 hx
    rw [List.forall₂_iff_get] at hw
    obtain ⟨hlt, hget⟩ := List.getElem?_eq_some_iff.1 hi
    have := hw.2 i (by rw [hw.1]; exact hlt) hlt
    simp only [List.get_eq_getElem, hget] at this
    exact wants_text ho this
  have wne : ∀ {w : List Sub}, List.Forall₂ (Wants h run v) v.dims w → w ≠ [] := by
    rintro w hw rfl
    rw [List.forall₂_nil_right_iff] at hw
    exact hd hw
  by_cases hs : r.subs = []
  · simp only [hs, List.flatMap_nil, if_true, joinWith_eq]
    constructor
    · rintro ⟨x, ⟨ds, hm, hx⟩, rfl⟩
      simp only [Option.some.injEq] at hx
      subst hx
      have hw := (dims_iff ho hq).2 ⟨ds, hm, rfl⟩
      refine ⟨_, _, hw, rfl, ?_⟩
      simp only [Ref.text, subsText, if_neg (wne hw), dims_text ho hq hm]
    · rintro ⟨w, s, hw, rfl, rfl⟩
      obtain ⟨ds, hm, rfl⟩ := (dims_iff ho hq).1 hw
      refine ⟨_, ⟨ds, hm, rfl⟩, ?_⟩
      simp only [Ref.text, subsText, if_neg (wne hw), dims_text ho hq hm]
  · have hp : r.subs.flatMap pieces ≠ [] := by
      intro he
      rw [List.flatMap_eq_nil_iff] at he
      cases hl : r.subs with
      | nil => exact hs hl
      | cons x l => exact (joined_splitOn ',' x.text).1 (he x (by rw [hl]; simp))
    have good : ∀ {w s : List Sub}, List.Forall₂ (Wants h run v) v.dims w → Fills r.subs w s → ∀ x ∈ s.map Sub.text, x ≠ [] ∧ x.getLast? ≠ some ',' := by
      intro w s hw hf x hx
      obtain ⟨y, hy, rfl⟩ := List.mem_map.1 hx
      rcases fills_mem hf y hy with h1 | h1
      · exact subOk_text (hr.subs y h1)
      · exact wtext hw y h1
    simp only [hp, hs, if_false]
    constructor
    · rintro ⟨x, ⟨ds, hm, hx⟩, rfl⟩
      have hw := (dims_iff ho hq).2 ⟨ds, hm, rfl⟩
      rw [Option.map_eq_some_iff] at hx
      obtain ⟨q, hq', rfl⟩ := hx
      rw [dims_text ho hq hm] at hq'
      obtain ⟨s, hf⟩ := fills_merge hr.subs hq'
      obtain ⟨x, h1, h2, h3⟩ := merge_fills hr.subs hf
      rw [h1] at hq'
      cases hq'
      have hsn := fills_ne hf hs
      refine ⟨_, s, hw, hf, ?_⟩
      simp only [Ref.text, subsText, if_neg hsn]
      rw [parens_eq (fun hx => hsn (h3.1 hx)) (by rw [h2]; exact joined_last (good hw hf)), h2]
    · rintro ⟨w, s, hw, hf, rfl⟩
      obtain ⟨ds, hm, hwe⟩ := (dims_iff ho hq).1 hw
      obtain ⟨x, h1, h2, h3⟩ := merge_fills hr.subs hf
      have hsn := fills_ne hf hs
      refine ⟨⟨parens x, parens (w.map Sub.text), '(' :: (joined '*' (ds.map Dim.size) ++ [')'])⟩, ⟨ds, hm, ?_⟩, ?_⟩
      · rw [dims_text ho hq hm, ← hwe, h1, joinWith_eq]; rfl
      · simp only [Ref.text, subsText, if_neg hsn]
        rw [parens_eq (fun hx => hsn (h3.1 hx)) (by rw [h2]; exact joined_last (good hw hf)), h2]

/-- **C76**, temporary variables: they have exactly the dimensions that the scheme asks for. -/
theorem C76_alloc_partial (ho : HostOk h) {r : Ref} (hr : RefOk r) (hrv : r.text = v.target) (hq : ReqOk h run v) {t : List Char}
    (ht : allocated h run v = some t) :
    ∃ w, List.Forall₂ (Wants h run v) v.dims w ∧ t = subsText w := by
  unfold allocated section_ at ht
  rw [← hrv, extractDims_ref hr] at ht
  by_cases hd : v.dims = []
  · simp only [hd, if_true, Option.map_some, Option.some.injEq] at ht
    subst ht
    exact ⟨[], by rw [hd]; exact .nil, rfl⟩
  simp only [hd, if_false] at ht
  rw [Option.map_eq_some_iff] at ht
  obtain ⟨x, hx, rfl⟩ := ht
  rw [Option.bind_eq_some_iff] at hx
  obtain ⟨ds, hm, hx⟩ := hx
  have hw := (dims_iff ho hq).2 ⟨ds, hm, rfl⟩
  refine ⟨_, hw, ?_⟩
  have wne : (ds.map fun d => if d.explicit then Sub.range d.lo d.hi else Sub.range [] []) ≠ [] := by
    intro he; rw [he, List.forall₂_nil_right_iff] at hw; exact hd hw
  unfold subsText
  rw [if_neg wne]
  split at hx
  · cases hx
    simp only [joinWith_eq, dims_text ho hq hm]
  · rw [Option.map_eq_some_iff, dims_text ho hq hm] at hx
    obtain ⟨q, hq', rfl⟩ := hx
    obtain ⟨s, hf⟩ := fills_merge hr.subs hq'
    obtain ⟨x, h1, h2, h3⟩ := merge_fills hr.subs hf
    rw [h1] at hq'
    cases hq'
    apply parens_eq (by simpa using wne)
    apply joined_last
    intro y hy
    obtain ⟨z, hz, rfl⟩ := List.mem_map.1 hy
    obtain ⟨i, hi⟩ := List.mem_iff_getElem?.1 hz
    rw [List.forall₂_iff_get] at hw
    obtain ⟨hlt, hget⟩ := List.getElem?_eq_some_iff.1 hi
    have := hw.2 i (by rw [hw.1]; exact hlt) hlt
    simp only [List.get_eq_getElem, hget] at this
    exact wants_text ho this


/-! ## The debug mode -/

/-- **C76 is violated** by the tests of the debug mode: the number of elements of the section is compared with the number that follows from its own bounds,
so that no test ever fails, whatever the size of the array is. -/
theorem C76_debug_violated : ∀ {bs : List (Int × Int)}, (∀ b ∈ bs, b.1 ≤ b.2 + 1) → sectionSize bs = expectedSize bs
  | [], _ => rfl
  | b :: l, hb => by
    rw [sectionSize, expectedSize, C76_debug_violated fun x hx => hb x (List.mem_cons_of_mem _ hx), Int.max_eq_right]
    have := hb b (by simp)
    omega

/-- With bounds like `3:1` the section is empty, and the test fails although everything is right. -/
theorem C76_debug_empty_violated : sectionSize [(3, 1)] = 0 ∧ expectedSize [(3, 1)] = -1 := by decide

/-! ## Arrays for blocked data -/

theorem replicate_join (x : Str) (c : Char) : ∀ (n : Nat) {r : List Str}, r ≠ [] →
    (List.replicate n (x ++ [c])).flatten ++ joined c r = joined c (List.replicate n x ++ r)
  | 0, r, _ => by simp
  | n + 1, r, hr => by
    rw [List.replicate_succ, List.replicate_succ, List.flatten_cons, List.append_assoc, replicate_join x c n hr, List.cons_append, joined_cons (by simp [hr])]; simp

theorem replicate_join_after (x : Str) (c : Char) : ∀ (n : Nat) (y : Str), y ++ (List.replicate n (c :: x)).flatten = joined c (y :: List.replicate n x)
  | 0, y => by simp [joined]
  | n + 1, y => by
    rw [List.replicate_succ, List.replicate_succ, List.flatten_cons, joined_cons (by simp), ← replicate_join_after x c n x]; simp

/-- **C76**, blocked data: the array for all blocks has all dimensions with the bounds of the scheme, and a block is copied to (and from) the subscripts
with the columns of the block in the place of the horizontal dimension. -/
theorem C76_deblocked (hu : (h.map (·.std)).Nodup) {pre post : List Str} (hpre : horizontal ∉ pre)
    (hd : ∀ d ∈ pre ++ horizontal :: post, ∃ a b, d = a ++ ':' :: b ∧ (IsLiteral (lower a) ∨ IsName (lower a)) ∧ (IsLiteral (lower b) ∨ IsName (lower b)))
    {x y : List Char} : deblocked h (pre ++ horizontal :: post) = some (x, y) ↔
      (∃ w, List.Forall₂ (fun d s => ∃ a b lo hi, d = a ++ ':' :: b ∧ ':' ∉ a ∧ ':' ∉ b ∧ Bound h a lo ∧ Bound h b hi ∧ s = Sub.range lo hi) (pre ++ horizontal :: post) w ∧
        '(' :: (x ++ [')']) = subsText w) ∧
      y = joined ',' (List.replicate pre.length [':'] ++ "ib:ib+n-1".toList :: List.replicate post.length [':']) := by
  have key : ∀ d ∈ pre ++ horizontal :: post, ∀ t, allocDim h d = some t ↔
      ∃ s, (∃ a b lo hi, d = a ++ ':' :: b ∧ ':' ∉ a ∧ ':' ∉ b ∧ Bound h a lo ∧ Bound h b hi ∧ s = Sub.range lo hi) ∧ t = s.text := by
    intro d hdm t
    obtain ⟨a, b, rfl, wa, wb⟩ := hd d hdm
    have ca := colon_lower wa
    have cb := colon_lower wb
    have hb : ∀ d : Str, (if PB.isInt (strip (lower d)) = true then some (lower d) else (find h (lower d)).map (·.loc)) = bound h d := fun d => rfl
    unfold allocDim
    rw [if_pos (by simp), splitOn_append ca, splitOn_none cb]
    simp only [List.map_cons, List.map_nil, hb, Option.bind_eq_some_iff, Option.map_eq_some_iff, bound_iff hu wa, bound_iff hu wb]
    constructor
    · rintro ⟨lo, h1, hi, h2, rfl⟩; exact ⟨_, ⟨a, b, lo, hi, rfl, ca, cb, h1, h2, rfl⟩, rfl⟩
    · rintro ⟨s, ⟨a', b', lo, hi, he, ca', cb', h1, h2, rfl⟩, rfl⟩
      obtain ⟨rfl, rfl⟩ := colon_split ca cb ca' cb' he
      exact ⟨lo, h1, hi, h2, rfl⟩
  have lift : ∀ {l : List Str}, (∀ d ∈ l, d ∈ pre ++ horizontal :: post) → ∀ {ts : List Str}, List.Forall₂ (fun d t => allocDim h d = some t) l ts ↔
      ∃ w, List.Forall₂ (fun d s => ∃ a b lo hi, d = a ++ ':' :: b ∧ ':' ∉ a ∧ ':' ∉ b ∧ Bound h a lo ∧ Bound h b hi ∧ s = Sub.range lo hi) l w ∧ ts = w.map Sub.text := by
    intro l
    induction l with
    | nil =>
      intro _ ts
      simp only [List.forall₂_nil_left_iff]
      exact ⟨fun h => ⟨[], rfl, h⟩, fun ⟨w, h1, h2⟩ => by subst h1; exact h2⟩
    | cons d l ih =>
      intro hl ts
      simp only [List.forall₂_cons_left_iff, key d (hl d (by simp)), ih fun x hx => hl x (List.mem_cons_of_mem _ hx)]
      constructor
      · rintro ⟨t, ts', ⟨s, hs, rfl⟩, ⟨w, hw, rfl⟩, rfl⟩; exact ⟨s :: w, ⟨s, w, hs, hw, rfl⟩, rfl⟩
      · rintro ⟨_, ⟨s, w, hs, hw, rfl⟩, rfl⟩; exact ⟨s.text, w.map Sub.text, ⟨s, hs, rfl⟩, ⟨w, hw, rfl⟩, rfl⟩
  have hi : (pre ++ horizontal :: post).idxOf horizontal = pre.length := by
    rw [List.idxOf_append_of_notMem hpre]; simp
  unfold deblocked
  rw [Option.bind_eq_some_iff]
  simp only [mapM_forall2, lift fun d hd => hd]
  have hmem : horizontal ∈ pre ++ horizontal :: post := by simp
  simp only [hmem, if_true, hi, Option.some.injEq, Prod.mk.injEq, joinWith_eq]
  have hy : (List.replicate pre.length ":,".toList).flatten ++ "ib:ib+n-1".toList ++
      (List.replicate ((pre ++ horizontal :: post).length - (pre.length + 1)) ",:".toList).flatten =
      joined ',' (List.replicate pre.length [':'] ++ "ib:ib+n-1".toList :: List.replicate post.length [':']) := by
    rw [List.append_assoc, show (pre ++ horizontal :: post).length - (pre.length + 1) = post.length by simp; omega]
    rw [show (",:".toList : Str) = ',' :: [':'] from rfl, replicate_join_after]
    exact replicate_join [':'] ',' _ (by simp)
  rw [hy]
  constructor
  · rintro ⟨ts, ⟨w, hw, rfl⟩, rfl, rfl⟩
    refine ⟨⟨w, hw, ?_⟩, rfl⟩
    unfold subsText
    rw [if_neg]
    rintro rfl
    rw [List.forall₂_nil_right_iff] at hw
    simp at hw
  · rintro ⟨⟨w, hw, hx⟩, rfl⟩
    refine ⟨_, ⟨w, hw, rfl⟩, ?_, rfl⟩
    unfold subsText at hx
    rw [if_neg] at hx
    · simpa using hx.symm
    · rintro rfl
      rw [List.forall₂_nil_right_iff] at hw
      simp at hw

end Ccpp.SC
