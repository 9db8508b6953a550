import Verif.Spec.SuiteCalls
import Verif.Props.StateMachine
/-!
# The scheme library of C64
-/
namespace Ccpp.Seq

theorem headerKey_iff {h : Header} {n ph : Str} : headerKey h = (some n, some ph) ↔ IsRoutine h n ph := by
  unfold headerKey IsRoutine
  cases hm : SM.functionMatch SM.ccppMachine h.title with
  | none =>
    have hno := (SM.functionMatch_none_iff h.title).1 hm
    constructor
    · intro h; cases h
    · rintro ⟨suf, hr, _⟩; exact absurd hr (hno _ _ _)
  | some r =>
    obtain ⟨p, f, q⟩ := r
    have hs := (SM.C04_function_match h.title p f q).1 hm
    constructor
    · intro h
      simp only [Prod.mk.injEq, Option.some.injEq] at h
      obtain ⟨rfl, rfl⟩ := h
      exact ⟨f, hs⟩
    · rintro ⟨suf, hr⟩
      have := (SM.C04_function_match h.title n suf ph).2 hr
      rw [this] at hm
      cases hm
      rfl

theorem headerKey_name {h : Header} {n : Str} : (headerKey h).1 = some n ↔ ∃ ph, IsRoutine h n ph := by
  constructor
  · intro hk
    unfold headerKey at hk
    cases hm : SM.functionMatch SM.ccppMachine h.title with
    | none => rw [hm] at hk; cases hk
    | some r =>
      refine ⟨r.2.2, headerKey_iff.1 ?_⟩
      unfold headerKey
      rw [hm] at hk ⊢
      simp only at hk ⊢
      rw [hk]
  · rintro ⟨ph, h⟩
    rw [headerKey_iff.2 h]

section
variable {α : Type} [DecidableEq α]

/-- The elements of a list, each at its first place. -/
def firsts (l : List α) : List α := l.foldl (fun acc a => if a ∈ acc then acc else acc ++ [a]) []

theorem firsts_snoc (l : List α) (a : α) : firsts (l ++ [a]) = if a ∈ firsts l then firsts l else firsts l ++ [a] := by
  unfold firsts
  rw [List.foldl_append]
  rfl

theorem snoc_ind {P : List α → Prop} (h0 : P []) (h1 : ∀ l a, P l → P (l ++ [a])) (l : List α) : P l := by
  have : ∀ n (l : List α), l.length = n → P l := by
    intro n
    induction n with
    | zero => intro l hl; rw [List.length_eq_zero_iff.1 hl]; exact h0
    | succ n ih =>
      intro l hl
      have hne : l ≠ [] := by intro h; rw [h] at hl; cases hl
      rw [← List.dropLast_concat_getLast hne]
      exact h1 _ _ (ih _ (by rw [List.length_dropLast, hl]; rfl))
  exact this _ l rfl

theorem mem_firsts {l : List α} {a : α} : a ∈ firsts l ↔ a ∈ l := by
  revert a
  refine snoc_ind (P := fun l => ∀ {a}, a ∈ firsts l ↔ a ∈ l) (by simp [firsts]) ?_ l
  intro l b ih a
  rw [firsts_snoc]
  split
  · rename_i hb
    rw [ih, List.mem_append]
    constructor
    · exact .inl
    · rintro (h | h)
      · exact h
      · simp only [List.mem_singleton] at h; subst h; exact ih.1 hb
  · simp [ih]

theorem firsts_nodup (l : List α) : (firsts l).Nodup := by
  refine snoc_ind (P := fun l => (firsts l).Nodup) (by simp [firsts]) ?_ l
  intro l b ih
  rw [firsts_snoc]
  split
  · exact ih
  · rename_i hb
    rw [List.nodup_append]
    refine ⟨ih, by simp, ?_⟩
    intro x hx y hy hxy
    simp only [List.mem_singleton] at hy
    subst hy; subst hxy
    exact hb hx

/-- The order of `firsts`. -/
theorem firsts_sorted {l : List α} {a b : α} (h : [a, b].Sublist (firsts l)) :
    ∃ pre post, l = pre ++ a :: post ∧ b ∉ pre := by
  revert h
  refine snoc_ind (P := fun l => [a, b].Sublist (firsts l) → ∃ pre post, l = pre ++ a :: post ∧ b ∉ pre) ?_ ?_ l
  · intro h; cases h
  · intro l c ih h
    rw [firsts_snoc] at h
    split at h
    · obtain ⟨pre, post, rfl, hb⟩ := ih h
      exact ⟨pre, post ++ [c], by simp, hb⟩
    · rename_i hc
      by_cases hbc : b = c
      · subst hbc
        have ha : a ∈ firsts l := by
          have hsub : [a, b].Sublist (firsts l ++ [b]) := h
          rw [List.sublist_append_iff] at hsub
          obtain ⟨l1, l2, he, h1, h2⟩ := hsub
          cases l1 with
          | nil =>
            simp only [List.nil_append] at he
            rw [← he] at h2
            have := h2.length_le
            simp at this
          | cons x l1 =>
            simp only [List.cons_append, List.cons.injEq] at he
            rw [he.1]
            exact h1.subset (by simp)
        have hal := mem_firsts.1 ha
        obtain ⟨pre, post, rfl⟩ := List.append_of_mem hal
        refine ⟨pre, post ++ [b], by simp, fun hb => hc (mem_firsts.2 (by simp [hb]))⟩
      · have hsub : [a, b].Sublist (firsts l) := by
          rw [List.sublist_append_iff] at h
          obtain ⟨l1, l2, he, h1, h2⟩ := h
          cases l2 with
          | nil => rw [List.append_nil] at he; rw [he]; exact h1
          | cons x l2 =>
            exfalso
            have hx : x = c := by
              have := h2.subset (show x ∈ x :: l2 by simp)
              simpa using this
            have hl2 : l2 = [] := by
              have := h2.length_le
              simp at this
              exact this
            subst hx; subst hl2
            have : [a, b].getLast? = (l1 ++ [x]).getLast? := by rw [he]
            simp at this
            exact hbc this
        obtain ⟨pre, post, rfl, hb⟩ := ih hsub
        exact ⟨pre, post ++ [c], by simp, hb⟩

theorem look_map {β : Type} (l : List α) (f : α → β) (k : α) :
    look (l.map fun a => (a, f a)) k = if k ∈ l then some (f k) else none := by
  induction l with
  | nil => rfl
  | cons a l ih =>
    unfold look at ih ⊢
    rw [List.map_cons, List.find?_cons]
    by_cases h : a = k
    · subst h; simp
    · have : (decide (a = k)) = false := by simpa using h
      simp only [this]
      rw [ih]
      have hk : k = a ↔ False := ⟨fun e => h e.symm, False.elim⟩
      simp [hk]

end

/-- The entry of a scheme. -/
def entryOf (hs : List Header) (k : Option Str) : List (Option Str × Header) :=
  (hs.filter fun h => (headerKey h).1 = k).map fun h => ((headerKey h).2, h)

/-- The library in closed form. -/
def libOf (hs : List Header) : Library := (firsts (hs.map fun h => (headerKey h).1)).map fun k => (k, entryOf hs k)

theorem look_libOf (hs : List Header) (k : Option Str) :
    look (libOf hs) k = if k ∈ hs.map (fun h => (headerKey h).1) then some (entryOf hs k) else none := by
  unfold libOf
  rw [look_map]
  simp only [mem_firsts]

theorem look_entry_isSome (hs : List Header) (k ph : Option Str) :
    (look (entryOf hs k) ph).isSome = true ↔ (k, ph) ∈ hs.map headerKey := by
  unfold look entryOf
  rw [Option.isSome_map, List.find?_isSome]
  simp only [List.mem_map, List.mem_filter, decide_eq_true_eq]
  constructor
  · rintro ⟨p, ⟨h, ⟨hm, hk⟩, rfl⟩, hp⟩
    exact ⟨h, hm, Prod.ext hk hp⟩
  · rintro ⟨h, hm, he⟩
    exact ⟨_, ⟨h, ⟨hm, by rw [he]⟩, rfl⟩, by rw [he]⟩

theorem look_entry {hs : List Header} (hn : (hs.map headerKey).Nodup) (k ph : Option Str) (h : Header) :
    look (entryOf hs k) ph = some h ↔ h ∈ hs ∧ headerKey h = (k, ph) := by
  have uniq : ∀ x ∈ hs, ∀ y ∈ hs, headerKey x = headerKey y → x = y := by
    clear h
    induction hs with
    | nil => intro x hx; cases hx
    | cons a l ih =>
      rw [List.map_cons, List.nodup_cons] at hn
      intro x hx y hy he
      rcases List.mem_cons.1 hx with hx | hx <;> rcases List.mem_cons.1 hy with hy | hy
      · rw [hx, hy]
      · exact absurd (List.mem_map.2 ⟨y, hy, by rw [← he, hx]⟩) hn.1
      · exact absurd (List.mem_map.2 ⟨x, hx, by rw [he, hy]⟩) hn.1
      · exact ih hn.2 x hx y hy he
  have imp : ∀ h, look (entryOf hs k) ph = some h → h ∈ hs ∧ headerKey h = (k, ph) := by
    intro h hl
    unfold look entryOf at hl
    rw [Option.map_eq_some_iff] at hl
    obtain ⟨p, hp, rfl⟩ := hl
    have h1 := List.mem_of_find?_eq_some hp
    have h2 := List.find?_some hp
    rw [List.mem_map] at h1
    obtain ⟨x, hx, rfl⟩ := h1
    rw [List.mem_filter] at hx
    simp only [decide_eq_true_eq] at h2 hx
    exact ⟨hx.1, Prod.ext hx.2 h2⟩
  refine ⟨imp h, fun ⟨hm, hk⟩ => ?_⟩
  have hsome := (look_entry_isSome hs k ph).2 (List.mem_map.2 ⟨h, hm, hk⟩)
  obtain ⟨h', hl⟩ := Option.isSome_iff_exists.1 hsome
  obtain ⟨h1, h2⟩ := imp h' hl
  rw [hl, uniq h' h1 h hm (h2.trans hk.symm)]

theorem entryOf_snoc (hs : List Header) (h : Header) (k : Option Str) :
    entryOf (hs ++ [h]) k = if (headerKey h).1 = k then entryOf hs k ++ [((headerKey h).2, h)] else entryOf hs k := by
  unfold entryOf
  rw [List.filter_append, List.map_append]
  by_cases hk : (headerKey h).1 = k
  · simp [hk]
  · simp [hk]

theorem entryOf_nil {hs : List Header} {k : Option Str} (h : k ∉ hs.map fun h => (headerKey h).1) : entryOf hs k = [] := by
  unfold entryOf
  rw [List.map_eq_nil_iff, List.filter_eq_nil_iff]
  intro x hx hk
  simp only [decide_eq_true_eq] at hk
  exact h (List.mem_map.2 ⟨x, hx, hk⟩)

theorem addHeader_libOf (hs : List Header) (h : Header) :
    addHeader (libOf hs) h = if headerKey h ∈ hs.map headerKey then none else some (libOf (hs ++ [h])) := by
  have hfirst : ∀ k : Option Str, (look (libOf hs) k).isSome = decide (k ∈ hs.map fun h => (headerKey h).1) := by
    intro k
    rw [look_libOf]
    by_cases hk : k ∈ hs.map fun h => (headerKey h).1
    · rw [if_pos hk]; simp only [Option.isSome_some]; exact (decide_eq_true hk).symm
    · rw [if_neg hk]; simp only [Option.isSome_none]; exact (decide_eq_false hk).symm
  have hsnoc : libOf (hs ++ [h]) = (if (headerKey h).1 ∈ hs.map (fun h => (headerKey h).1) then libOf hs
      else libOf hs ++ [((headerKey h).1, [])]).map
        fun p => if p.1 = (headerKey h).1 then (p.1, p.2 ++ [((headerKey h).2, h)]) else p := by
    have h1 : firsts ((hs ++ [h]).map fun h => (headerKey h).1) =
        if (headerKey h).1 ∈ hs.map (fun h => (headerKey h).1) then firsts (hs.map fun h => (headerKey h).1)
        else firsts (hs.map fun h => (headerKey h).1) ++ [(headerKey h).1] := by
      rw [List.map_append, List.map_cons, List.map_nil, firsts_snoc]
      simp only [mem_firsts]
    have h2 : ∀ l : List (Option Str), (l.map fun k => (k, entryOf (hs ++ [h]) k)) =
        (l.map fun k => (k, entryOf hs k)).map
          fun p => if p.1 = (headerKey h).1 then (p.1, p.2 ++ [((headerKey h).2, h)]) else p := by
      intro l
      rw [List.map_map]
      refine List.map_congr_left fun k _ => ?_
      simp only [Function.comp_apply, entryOf_snoc]
      by_cases hk : k = (headerKey h).1
      · rw [if_pos hk.symm, if_pos hk]
      · rw [if_neg (Ne.symm hk), if_neg hk]
    unfold libOf
    rw [h1]
    split
    · exact h2 _
    · rename_i hno
      rw [h2, List.map_append, List.map_append, List.map_append]
      congr 1
      simp only [List.map_cons, List.map_nil, entryOf_nil hno]
  unfold addHeader
  simp only [hfirst]
  by_cases hk : (headerKey h).1 ∈ hs.map fun h => (headerKey h).1
  · rw [if_pos (decide_eq_true hk)]
    rw [look_libOf, if_pos hk]
    simp only
    rw [if_pos hk] at hsnoc
    rw [← hsnoc]
    by_cases hd : headerKey h ∈ hs.map headerKey
    · rw [if_pos hd, if_pos ((look_entry_isSome hs (headerKey h).1 (headerKey h).2).2 hd)]
    · rw [if_neg hd, if_neg (fun hc => hd ((look_entry_isSome hs (headerKey h).1 (headerKey h).2).1 hc))]
  · have hd : headerKey h ∉ hs.map headerKey := by
      intro hd
      obtain ⟨x, hx, he⟩ := List.mem_map.1 hd
      exact hk (List.mem_map.2 ⟨x, hx, by rw [he]⟩)
    rw [if_neg (by rw [decide_eq_false hk]; decide), if_neg hd]
    rw [if_neg hk] at hsnoc
    have hlook : look (libOf hs ++ [((headerKey h).1, [])]) (headerKey h).1 = some [] := by
      unfold look
      rw [List.find?_append]
      have : (libOf hs).find? (fun p => decide (p.1 = (headerKey h).1)) = none := by
        have h3 := hfirst (headerKey h).1
        rw [decide_eq_false hk] at h3
        unfold look at h3
        rw [Option.isSome_map] at h3
        simpa using h3
      rw [this]
      simp
    rw [hlook]
    simp only
    rw [if_neg (by unfold look; simp), ← hsnoc]

theorem library_libOf : ∀ (hs pre : List Header) (lib : Library), (pre.map headerKey).Nodup →
    (library (libOf pre) hs = some lib ↔ ((pre ++ hs).map headerKey).Nodup ∧ lib = libOf (pre ++ hs))
  | [], pre, lib, hpre => by
    rw [List.append_nil, library]
    constructor
    · intro h; injection h with h; exact ⟨hpre, h.symm⟩
    · rintro ⟨_, rfl⟩; rfl
  | h :: hs, pre, lib, hpre => by
    rw [library, addHeader_libOf]
    by_cases hd : headerKey h ∈ pre.map headerKey
    · rw [if_pos hd]
      constructor
      · intro h; cases h
      · rintro ⟨hn, _⟩
        rw [List.map_append, List.nodup_append] at hn
        exact absurd rfl (hn.2.2 _ hd _ (by simp))
    · rw [if_neg hd]
      have hpre' : ((pre ++ [h]).map headerKey).Nodup := by
        rw [List.map_append, List.nodup_append]
        refine ⟨hpre, by simp, ?_⟩
        intro x hx y hy hxy
        simp only [List.map_cons, List.map_nil, List.mem_singleton] at hy
        subst hy; subst hxy
        exact hd hx
      have := library_libOf hs (pre ++ [h]) lib hpre'
      rw [List.append_assoc, List.singleton_append] at this
      exact this

theorem library_iff (hs : List Header) (lib : Library) :
    library [] hs = some lib ↔ (hs.map headerKey).Nodup ∧ lib = libOf hs :=
  library_libOf hs [] lib (by simp)

/-- The routine of a scheme. -/
def routine (hs : List Header) (ph n : Str) : Option Header := look (entryOf hs (some n)) (some ph)

theorem routine_routines {hs : List Header} (hn : (hs.map headerKey).Nodup) (ph : Str) : Routines hs ph (routine hs ph) := by
  intro n h
  unfold routine
  rw [look_entry hn, headerKey_iff]

theorem Routines.unique {hs : List Header} {ph : Str} {r r' : Str → Option Header} (h : Routines hs ph r)
    (h' : Routines hs ph r') : r = r' := by
  funext n
  cases hr : r n with
  | none =>
    cases hr' : r' n with
    | none => rfl
    | some x => exact absurd ((h n x).2 ((h' n x).1 hr')) (by rw [hr]; simp)
  | some x => exact ((h' n x).2 ((h n x).1 hr)).symm

end Ccpp.Seq
