import Verif.Spec.PrebuildSections
import Verif.Props.PrebuildText
/-!
# Proofs about the sections of arrays (C76): texts
-/
namespace Ccpp.SC
open PB (Str IsName IsLiteral joined splitOn joinWith_eq joined_cons splitOn_none splitOn_append)
open PA (HVar)

/-! ## Parentheses -/

theorem prefix_append_cases {p s t : Str} (h : p <+: s ++ t) : p <+: s ∨ ∃ q, p = s ++ q ∧ q <+: t := by
  by_cases hl : p.length ≤ s.length
  · exact .inl (List.prefix_of_prefix_length_le h (List.prefix_append _ _) hl)
  · obtain ⟨q, rfl⟩ : s <+: p := List.prefix_of_prefix_length_le (List.prefix_append _ _) h (by omega)
    exact .inr ⟨q, rfl, (List.prefix_append_right_inj s).1 h⟩

theorem bal_nil : Balanced [] := ⟨by intro p hp; rw [List.prefix_nil.1 hp]; simp, by simp⟩

theorem bal_append {s t : Str} (hs : Balanced s) (ht : Balanced t) : Balanced (s ++ t) := by
  refine ⟨fun p hp => ?_, by simp [hs.2, ht.2]⟩
  rcases prefix_append_cases hp with h | ⟨q, h, hq⟩
  · exact hs.1 p h
  · subst h
    have := ht.1 q hq
    have := hs.2
    simp only [List.count_append]; omega

theorem bal_plain {s : Str} (h : ∀ c ∈ s, c ≠ '(' ∧ c ≠ ')') : Balanced s := by
  have hp : ∀ p : Str, p <+: s → p.count '(' = 0 ∧ p.count ')' = 0 := fun p hp =>
    ⟨List.count_eq_zero.2 fun hc => (h _ (hp.subset hc)).1 rfl, List.count_eq_zero.2 fun hc => (h _ (hp.subset hc)).2 rfl⟩
  exact ⟨fun p h' => by simp [hp p h'], by simp [hp s List.prefix_rfl]⟩

theorem bal_suffix {s v : Str} (h : Balanced s) (hv : v <:+ s) : v.count '(' ≤ v.count ')' := by
  obtain ⟨u, rfl⟩ := hv
  have h1 := h.1 u (List.prefix_append _ _)
  have h2 := h.2
  simp only [List.count_append] at h2
  omega

theorem bal_joined : ∀ {l : List Str}, (∀ s ∈ l, Balanced s) → Balanced (joined ',' l)
  | [], _ => bal_nil
  | [x], h => h x (by simp)
  | x :: y :: l, h => by
    rw [joined_cons (by simp)]
    have h1 : Balanced [','] := bal_plain (by simp)
    have := bal_append (h x (by simp)) (bal_append h1 (bal_joined (l := y :: l) fun s hs => h s (List.mem_cons_of_mem _ hs)))
    simpa using this

theorem subOk_bal {s : Sub} (h : SubOk s) : Balanced s.text := by
  cases s with
  | index e => exact h.2.2.2
  | range lo hi => obtain ⟨rfl, rfl⟩ := h; exact bal_plain (by simp [Sub.text])

/-! ## The last part of a local name -/

theorem lastPart_scan (R : Str) : ∀ (n : Nat) (X : Str), X.length = n → ∀ (p : Int) (acc : Str),
    (∀ u v, X = u ++ '%' :: v → p + (v.count ')' : Int) - (v.count '(' : Int) ≠ 0) →
    lastPart p (X.reverse ++ R) acc = lastPart (p + (X.count ')' : Int) - (X.count '(' : Int)) R (X ++ acc) := by
  intro n
  induction n with
  | zero => intro X hX p acc _; rw [List.length_eq_zero_iff.1 hX]; simp
  | succ n ih =>
    intro X hX p acc h
    rcases List.eq_nil_or_concat X with hn | ⟨Y, c, hY⟩
    · rw [hn] at hX; cases hX
    · rw [List.concat_eq_append] at hY
      subst hY
      have hl : Y.length = n := by simpa using hX
      have hb : ∀ (p' : Int), (p' = p + (([c] : Str).count ')' : Int) - (([c] : Str).count '(' : Int)) →
          ∀ u v, Y = u ++ '%' :: v → p' + (v.count ')' : Int) - (v.count '(' : Int) ≠ 0 := by
        intro p' hp' u v hY
        have := h u (v ++ [c]) (by rw [hY]; simp)
        simp only [List.count_append] at this
        omega
      rw [List.reverse_append, List.reverse_singleton, List.singleton_append, List.cons_append, lastPart]
      by_cases h1 : c = ')'
      · rw [if_pos h1, ih Y hl (p + 1) _ (hb _ (by subst h1; simp))]
        subst h1
        simp only [List.count_append, List.append_assoc, List.singleton_append]
        congr 1
        simp; omega
      · rw [if_neg h1]
        by_cases h2 : c = '('
        · rw [if_pos h2, ih Y hl (p - 1) _ (hb _ (by subst h2; simp))]
          subst h2
          simp only [List.count_append, List.append_assoc, List.singleton_append]
          congr 1
          simp; omega
        · rw [if_neg h2]
          have h0 : ([c] : Str).count ')' = 0 ∧ ([c] : Str).count '(' = 0 := by
            exact ⟨List.count_eq_zero.2 (by simpa using fun h => h1 h.symm), List.count_eq_zero.2 (by simpa using fun h => h2 h.symm)⟩
          by_cases h3 : c = '%'
          · have := h Y [] (by rw [h3])
            rw [if_neg (by rintro ⟨_, hp⟩; apply this; simp [hp]), ih Y hl p _ (hb _ (by omega))]
            simp only [List.count_append, List.append_assoc, List.singleton_append, h0]
            congr 1
          · rw [if_neg (fun hh => h3 hh.1), ih Y hl p _ (hb _ (by omega))]
            simp only [List.count_append, List.append_assoc, List.singleton_append, h0]
            congr 1

/-- What stands in the parentheses -/
theorem inner_bal {l : List Sub} (h : ∀ s ∈ l, SubOk s) : Balanced (joined ',' (l.map Sub.text)) := by
  apply bal_joined
  intro s hs
  obtain ⟨t, ht, rfl⟩ := List.mem_map.1 hs
  exact subOk_bal (h t ht)

theorem subsText_count {l : List Sub} (h : ∀ s ∈ l, SubOk s) : (subsText l).count '(' = (subsText l).count ')' := by
  unfold subsText
  split
  · rfl
  · have := (inner_bal h).2
    simp [List.count_append, List.count_cons, this]

theorem subsText_scan {l : List Sub} (h : ∀ s ∈ l, SubOk s) {u v : Str} (he : subsText l = u ++ '%' :: v) :
    (0 : Int) + (v.count ')' : Int) - (v.count '(' : Int) ≠ 0 := by
  unfold subsText at he
  split at he
  · exact absurd he.symm (by simp)
  · have hb := inner_bal h
    rcases List.eq_nil_or_concat v with hn | ⟨w, c, hw⟩
    · subst hn
      have := congrArg List.getLast? he
      rw [← List.cons_append, List.getLast?_concat, show u ++ ['%'] = u.concat '%' by simp, List.concat_eq_append, List.getLast?_concat] at this
      exact absurd this (by decide)
    · rw [List.concat_eq_append] at hw
      subst hw
      have h1 : '(' :: joined ',' (l.map Sub.text) ++ [')'] = (u ++ '%' :: w) ++ [c] := by simpa using he
      obtain ⟨h2, h3⟩ := List.append_inj' h1 rfl
      simp only [List.cons.injEq, and_true] at h3
      subst h3
      cases u with
      | nil => simp at h2
      | cons a u =>
        simp only [List.cons_append, List.cons.injEq] at h2
        have := bal_suffix hb (v := w) ⟨u ++ ['%'], by rw [h2.2]; simp⟩
        simp only [List.count_append]
        simp
        omega

theorem lastPart_ref {r : Ref} (h : RefOk r) : lastPart 0 r.text.reverse [] = r.name ++ subsText r.subs := by
  have e : r.text.reverse = (subsText r.subs).reverse ++ (r.name.reverse ++ r.pre.reverse) := by simp [Ref.text]
  have hn : ∀ u v, r.name = u ++ '%' :: v → (0 : Int) + (v.count ')' : Int) - (v.count '(' : Int) ≠ 0 := by
    intro u v hu
    exact absurd rfl (h.name '%' (by rw [hu]; simp)).2.2
  have hc := subsText_count h.subs
  rw [e, lastPart_scan _ _ _ rfl 0 [] (fun u v hu => subsText_scan h.subs hu)]
  rw [show (0 : Int) + ((subsText r.subs).count ')' : Int) - ((subsText r.subs).count '(' : Int) = 0 by omega]
  have hn0 : r.name.count '(' = 0 ∧ r.name.count ')' = 0 :=
    ⟨List.count_eq_zero.2 fun hc => (h.name _ hc).1 rfl, List.count_eq_zero.2 fun hc => (h.name _ hc).2.1 rfl⟩
  rw [lastPart_scan _ _ _ rfl 0 _ hn, hn0.1, hn0.2]
  simp only [List.append_nil]
  rcases h.pre.2 with hp | hp
  · rw [hp]; simp [lastPart]
  · obtain ⟨q, hq⟩ := List.getLast?_eq_some_iff.1 hp
    rw [hq]
    simp [lastPart]

/-! ## The dimensions in it -/

theorem dimText_part {n : Str} (hn : ∀ c ∈ n, c ≠ '(' ∧ c ≠ ')' ∧ c ≠ '%') (l : List Sub) : dimText (n ++ subsText l) = subsText l := by
  have h0 : ∀ c ∈ n, (c != '(') = true := fun c hc => by simpa using (hn c hc).1
  unfold dimText
  rw [List.dropWhile_append_of_pos h0]
  unfold subsText
  split
  · simp
  · rw [List.dropWhile_cons_of_neg (by simp)]
    rw [← List.cons_append, List.reverse_append, List.reverse_singleton, List.singleton_append, List.dropWhile_cons_of_neg (by simp)]
    simp

/-- `splitDims` splits at all commas. -/
theorem splitDims_eq : ∀ (s d : Str), (s = [] → d ≠ []) → (s.getLast? ≠ some ',') →
    ∃ w ws, splitOn ',' s = w :: ws ∧ splitDims (s ++ [')']) d = (d ++ w) :: ws
  | [], d, h, _ => ⟨[], [], rfl, by
      have : d.isEmpty = false := by cases d with | nil => exact absurd rfl (h rfl) | cons => rfl
      simp [splitDims, this]⟩
  | c :: s, d, _, hl => by
    by_cases hc : c = ','
    · subst hc
      cases s with
      | nil => simp at hl
      | cons a s =>
        obtain ⟨w, ws, h1, h2⟩ := splitDims_eq (a :: s) [] (by simp) (by simpa [List.getLast?_cons_cons] using hl)
        refine ⟨[], w :: ws, ?_, ?_⟩
        · rw [splitOn, if_pos rfl, h1]
        · rw [List.cons_append, splitDims, if_pos rfl, h2]; simp
    · have hl' : s.getLast? ≠ some ',' := by
        cases s with
        | nil => simp
        | cons a s => simpa [List.getLast?_cons_cons] using hl
      obtain ⟨w, ws, h1, h2⟩ := splitDims_eq s (d ++ [c]) (by simp) hl'
      refine ⟨c :: w, ws, ?_, ?_⟩
      · rw [splitOn, if_neg hc, h1]
      · rw [List.cons_append, splitDims, if_neg hc, if_neg (by simp), h2]; simp

/-- The pieces of a subscript -/
def pieces (s : Sub) : List Str := splitOn ',' s.text

theorem joined_append {c : Char} : ∀ {a b : List Str}, a ≠ [] → b ≠ [] → joined c (a ++ b) = joined c a ++ c :: joined c b
  | [x], b, _, hb => by rw [List.singleton_append, joined_cons hb]; rfl
  | x :: y :: a, b, _, hb => by
    rw [List.cons_append, joined_cons (by simp), joined_append (a := y :: a) (by simp) hb, joined_cons (l := y :: a) (by simp)]; simp

theorem joined_splitOn (c : Char) : ∀ s : Str, splitOn c s ≠ [] ∧ joined c (splitOn c s) = s
  | [] => ⟨by simp [splitOn], rfl⟩
  | d :: s => by
    obtain ⟨h1, h2⟩ := joined_splitOn c s
    rw [splitOn]
    split
    · next h => exact ⟨by simp, by rw [joined_cons h1, h2, h]; rfl⟩
    · cases h : splitOn c s with
      | nil => exact absurd h h1
      | cons w ws =>
        rw [h] at h2
        refine ⟨by simp, ?_⟩
        cases ws with
        | nil => rw [← h2]; rfl
        | cons x xs => rw [← h2, joined_cons (l := x :: xs) (by simp), joined_cons (l := x :: xs) (by simp)]; rfl

theorem splitOn_pieces (c : Char) : ∀ {l : List Str}, l ≠ [] → splitOn c (joined c l) = l.flatMap (splitOn c)
  | [x], _ => by simp [joined]
  | x :: y :: l, _ => by
    rw [joined_cons (by simp), List.flatMap_cons, ← splitOn_pieces c (l := y :: l) (by simp)]
    generalize joined c (y :: l) = t
    clear * -
    induction x with
    | nil => simp [splitOn]
    | cons d x ih =>
      rw [List.cons_append, splitOn, splitOn]
      split
      · rw [ih]; rfl
      · rw [ih]
        cases h : splitOn c x with
        | nil => exact absurd h (joined_splitOn c x).1
        | cons w ws => rfl

theorem mem_splitOn {c d : Char} {s t : Str} (h : t ∈ splitOn c s) (hd : d ∈ t) : d ∈ s := by
  induction s generalizing t with
  | nil => simp [splitOn] at h; subst h; exact hd
  | cons a s ih =>
    rw [splitOn] at h
    split at h
    · rcases List.mem_cons.1 h with rfl | h
      · cases hd
      · exact List.mem_cons_of_mem _ (ih h hd)
    · cases hs : splitOn c s with
      | nil => exact absurd hs (joined_splitOn c s).1
      | cons w ws =>
        rw [hs] at h
        simp only [List.mem_cons] at h
        rcases h with rfl | h
        · rcases List.mem_cons.1 hd with rfl | hd
          · simp
          · exact List.mem_cons_of_mem _ (ih (hs ▸ List.mem_cons_self) hd)
        · exact List.mem_cons_of_mem _ (ih (hs ▸ List.mem_cons_of_mem _ h) hd)

theorem joined_ne {l : List Str} (hne : l ≠ []) (h : ∀ s ∈ l, s ≠ []) : joined ',' l ≠ [] := by
  cases l with
  | nil => exact absurd rfl hne
  | cons x l =>
    cases l with
    | nil => exact h x (by simp)
    | cons y l => rw [joined_cons (by simp)]; simp

theorem joined_last : ∀ {l : List Str}, (∀ s ∈ l, s ≠ [] ∧ s.getLast? ≠ some ',') → (joined ',' l).getLast? ≠ some ','
  | [], _ => by simp [joined]
  | [x], h => (h x (by simp)).2
  | x :: y :: l, h => by
    have := joined_last (l := y :: l) fun s hs => h s (List.mem_cons_of_mem _ hs)
    rw [joined_cons (by simp)]
    have hne : joined ',' (y :: l) ≠ [] := joined_ne (by simp) fun s hs => (h s (List.mem_cons_of_mem _ hs)).1
    rw [List.getLast?_append]
    cases hj : joined ',' (y :: l) with
    | nil => exact absurd hj hne
    | cons a t =>
      rw [hj] at this
      rw [List.getLast?_cons_cons, List.getLast?_eq_some_getLast (by simp)] at *
      simpa using this

theorem subOk_text {s : Sub} (h : SubOk s) : s.text ≠ [] ∧ s.text.getLast? ≠ some ',' := by
  cases s with
  | index e => exact ⟨h.1, h.2.1⟩
  | range lo hi => obtain ⟨rfl, rfl⟩ := h; simp [Sub.text]

/-- What the analysis of a local name finds -/
theorem extractDims_ref {r : Ref} (h : RefOk r) : extractDims r.text = (r.subs.flatMap pieces, subsText r.subs) := by
  unfold extractDims
  simp only [lastPart_ref h, dimText_part h.name]
  by_cases hs : r.subs = []
  · simp [hs, subsText, splitDims]
  · have hl : r.subs.map Sub.text ≠ [] := by simpa using hs
    have hx : ∀ s ∈ r.subs.map Sub.text, s ≠ [] ∧ s.getLast? ≠ some ',' := by
      intro s hs'
      obtain ⟨t, ht, rfl⟩ := List.mem_map.1 hs'
      exact subOk_text (h.subs t ht)
    have e : subsText r.subs = '(' :: (joined ',' (r.subs.map Sub.text) ++ [')']) := by unfold subsText; rw [if_neg hs]
    rw [e, List.drop_succ_cons, List.drop_zero]
    obtain ⟨w, ws, h1, h2⟩ := splitDims_eq (joined ',' (r.subs.map Sub.text)) [] (fun hj => absurd hj (joined_ne hl fun s hs => (hx s hs).1)) (joined_last hx)
    rw [h2, List.nil_append, ← h1, splitOn_pieces ',' hl, List.flatMap_map]
    rfl

/-! ## The name without the dimensions -/

theorem prefix_depth {D p : Str} (hD : ∃ i, D = '(' :: (i ++ [')']) ∧ Balanced i) (hp : p <+: D) (hne : p ≠ []) (hlt : p.length < D.length) :
    p.count ')' < p.count '(' := by
  obtain ⟨i, rfl, hb⟩ := hD
  cases p with
  | nil => exact absurd rfl hne
  | cons a p =>
    rw [List.cons_prefix_cons] at hp
    obtain ⟨rfl, hp⟩ := hp
    rcases prefix_append_cases hp with h | ⟨q, h, hq⟩
    · have := hb.1 p h
      simp [List.count_cons]; omega
    · cases q with
      | nil =>
        simp at h; subst h
        have := hb.2
        simp [List.count_cons]; omega
      | cons b q => subst h; simp at hlt

theorem removeAll_end {D : Str} (hD : ∃ i, D = '(' :: (i ++ [')']) ∧ Balanced i) : ∀ {u : Str}, (∀ v, v <:+ u → v.count '(' ≤ v.count ')') → ¬ D <:+: u →
    PA.removeAll D 0 (u ++ D) = u
  | [], _, _ => by
    obtain ⟨i, hi, hb⟩ := hD
    have h0 : ∀ (k : Nat) (s : Str), s.length = k → PA.removeAll D k s = [] := by
      intro k
      induction k with
      | zero => intro s hs; rw [List.length_eq_zero_iff.1 hs]; rfl
      | succ k ih =>
        intro s hs
        cases s with
        | nil => rfl
        | cons a s => rw [PA.removeAll]; exact ih s (by simpa using hs)
    rw [List.nil_append]
    conv => lhs; arg 3; rw [hi]
    rw [PA.removeAll, if_pos (by rw [← hi]; simp)]
    apply h0
    rw [hi]; simp
  | c :: u, hu, hno => by
    rw [List.cons_append, PA.removeAll, if_neg]
    · rw [removeAll_end hD (fun v hv => hu v (hv.trans (List.suffix_cons _ _))) (fun h => hno (h.trans (List.suffix_cons _ _).isInfix))]
    · intro hpre
      rw [List.isPrefixOf_iff_prefix, ← List.cons_append] at hpre
      by_cases hl : D.length ≤ (c :: u).length
      · exact hno (List.prefix_of_prefix_length_le hpre (List.prefix_append _ _) hl).isInfix
      · have hp : (c :: u) <+: D := List.prefix_of_prefix_length_le (List.prefix_append _ _) hpre (by omega)
        have h1 := prefix_depth hD hp (by simp) (by omega)
        have h2 := hu (c :: u) List.suffix_rfl
        omega

theorem base_ref {r : Ref} (h : RefOk r) : base r.text = r.pre ++ r.name := by
  unfold base
  simp only [extractDims_ref h]
  by_cases hs : r.subs = []
  · simp [hs, subsText, Ref.text]
  · have e : subsText r.subs = '(' :: (joined ',' (r.subs.map Sub.text) ++ [')']) := by unfold subsText; rw [if_neg hs]
    have hn : Balanced r.name := bal_plain fun c hc => ⟨(h.name c hc).1, (h.name c hc).2.1⟩
    rw [if_neg (by rw [e]; simp)]
    unfold Ref.text
    apply removeAll_end ⟨_, e, inner_bal h.subs⟩
    · intro v hv; exact bal_suffix (bal_append h.pre.1 hn) hv
    · intro hin
      have hop := h.once hs
      obtain ⟨a, b, hab⟩ := hin
      -- the last closing parenthesis of the occurrence is in `pre`
      have hk : ∀ (n : Str), (∀ c ∈ n, c ≠ ')') → ∀ b, a ++ subsText r.subs ++ b = r.pre ++ n → subsText r.subs <:+: r.pre := by
        intro n hc
        obtain ⟨m, rfl⟩ : ∃ m : Str, n = m.reverse := ⟨n.reverse, by simp⟩
        induction m with
        | nil => intro b hb; exact ⟨a, b, by simpa using hb⟩
        | cons c m ih =>
          rw [List.reverse_cons] at hc ⊢
          intro b hb
          rcases List.eq_nil_or_concat b with hb0 | ⟨b', d, hb'⟩
          · subst hb0
            have := congrArg List.getLast? hb
            rw [e, List.append_nil, ← List.cons_append, ← List.append_assoc, List.getLast?_concat, ← List.append_assoc, List.getLast?_concat] at this
            exact absurd (Option.some.inj this).symm (hc c (by simp))
          · rw [List.concat_eq_append] at hb'
            subst hb'
            rw [← List.append_assoc, ← List.append_assoc] at hb
            exact ih (fun x hx => hc x (by simp at hx; simp [hx])) b' (List.append_inj' hb rfl).1
      exact hop (hk r.name (fun c hc => (h.name c hc).2.1) b hab)

end Ccpp.SC
