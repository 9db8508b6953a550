import Verif.Model.FrameworkEnv
import Verif.Spec.FrameworkEnv
/-!
# C39, C53: the framework environment
-/
namespace Ccpp.Env

/-! ## split -/

theorem splitC_ne_nil (c : Char) (s : Str) : splitC c s ≠ [] := by
  cases s with
  | nil => simp [splitC]
  | cons d s =>
    rw [splitC]
    split
    · simp
    · split <;> simp

theorem splitC_none {c : Char} {s : Str} (h : c ∉ s) : splitC c s = [s] := by
  induction s with
  | nil => rfl
  | cons d s ih =>
    rw [List.mem_cons, not_or] at h
    rw [splitC, if_neg (fun e => h.1 e.symm), ih h.2]

theorem splitC_app {c : Char} {l r : Str} (h : c ∉ l) : splitC c (l ++ c :: r) = l :: splitC c r := by
  induction l with
  | nil => simp [splitC]
  | cons d l ih =>
    rw [List.mem_cons, not_or] at h
    rw [List.cons_append, splitC, if_neg (fun e => h.1 e.symm), ih h.2]

theorem exists_first {c : Char} {s : Str} (h : c ∈ s) : ∃ l r, s = l ++ c :: r ∧ c ∉ l := by
  induction s with
  | nil => cases h
  | cons d s ih =>
    by_cases hd : d = c
    · exact ⟨[], s, by rw [hd]; rfl, by simp⟩
    · rcases List.mem_cons.1 h with h | h
      · exact absurd h.symm hd
      · obtain ⟨l, r, rfl, hl⟩ := ih h
        exact ⟨d :: l, r, rfl, by simp [hl]; exact fun e => hd e.symm⟩

theorem splitC_two {c : Char} {s a b : Str} (h : splitC c s = [a, b]) :
    s = a ++ c :: b ∧ c ∉ a ∧ c ∉ b := by
  by_cases hc : c ∈ s
  · obtain ⟨l, r, rfl, hl⟩ := exists_first hc
    rw [splitC_app hl] at h
    injection h with h1 h2
    subst h1
    by_cases hr : c ∈ r
    · obtain ⟨l', r', rfl, hl'⟩ := exists_first hr
      rw [splitC_app hl'] at h2
      injection h2 with _ h3
      exact absurd h3 (splitC_ne_nil _ _)
    · rw [splitC_none hr] at h2
      injection h2 with h2
      subst h2
      exact ⟨rfl, hl, hr⟩
  · rw [splitC_none hc] at h; injection h with _ h; cases h

theorem split1_none {c : Char} {s : Str} (h : c ∉ s) : split1 c s = [s] := by
  induction s with
  | nil => rfl
  | cons d s ih =>
    rw [List.mem_cons, not_or] at h
    rw [split1, if_neg (fun e => h.1 e.symm), ih h.2]

theorem split1_app {c : Char} {l r : Str} (h : c ∉ l) : split1 c (l ++ c :: r) = [l, r] := by
  induction l with
  | nil => simp [split1]
  | cons d l ih =>
    rw [List.mem_cons, not_or] at h
    rw [List.cons_append, split1, if_neg (fun e => h.1 e.symm), ih h.2]

/-! ## strip -/

theorem dropWhile_append_keep {p : Char → Bool} {l r : Str} {c : Char} (hc : p c = false) :
    (l ++ c :: r).dropWhile p = l.dropWhile p ++ c :: r := by
  induction l with
  | nil => simp [List.dropWhile, hc]
  | cons d l ih =>
    rw [List.cons_append, List.dropWhile_cons, List.dropWhile_cons]
    split
    · exact ih
    · rfl

theorem lstrip_keep {l r : Str} {c : Char} (hc : isWs c = false) : lstrip (l ++ c :: r) = lstrip l ++ c :: r :=
  dropWhile_append_keep hc

theorem rstrip_keep {l r : Str} {c : Char} (hc : isWs c = false) : rstrip (l ++ c :: r) = l ++ c :: rstrip r := by
  unfold rstrip
  rw [List.reverse_append, List.reverse_cons, List.append_assoc, List.singleton_append,
    dropWhile_append_keep hc]
  simp

theorem strip_keep {l r : Str} {c : Char} (hc : isWs c = false) :
    strip (l ++ c :: r) = lstrip l ++ c :: rstrip r := by
  unfold strip; rw [rstrip_keep hc, lstrip_keep hc]

theorem dropWhile_idem (p : Char → Bool) (l : Str) : (l.dropWhile p).dropWhile p = l.dropWhile p := by
  induction l with
  | nil => rfl
  | cons d l ih =>
    rw [List.dropWhile_cons]
    split
    · exact ih
    · next h => rw [List.dropWhile_cons, if_neg h]

theorem rstrip_rstrip (s : Str) : rstrip (rstrip s) = rstrip s := by
  unfold rstrip; rw [List.reverse_reverse, dropWhile_idem]

theorem lstrip_lstrip (s : Str) : lstrip (lstrip s) = lstrip s := dropWhile_idem _ _

theorem dropWhile_all {p : Char → Bool} {l : Str} (h : ∀ c ∈ l, p c = true) : l.dropWhile p = [] := by
  induction l with
  | nil => rfl
  | cons d l ih =>
    rw [List.dropWhile_cons, if_pos (h d (List.mem_cons_self ..))]
    exact ih fun c hc => h c (List.mem_cons_of_mem _ hc)

/-- Left- and right-stripping commute. -/
theorem lstrip_rstrip_comm (s : Str) : lstrip (rstrip s) = rstrip (lstrip s) := by
  by_cases h : ∃ c ∈ s, isWs c = false
  · obtain ⟨c, hc, hw⟩ := h
    obtain ⟨l, r, rfl⟩ := List.append_of_mem hc
    rw [rstrip_keep hw, lstrip_keep hw, lstrip_keep hw, rstrip_keep hw]
  · have hall : ∀ c ∈ s, isWs c = true := by
      intro c hc
      cases hw : isWs c with
      | true => rfl
      | false => exact absurd ⟨c, hc, hw⟩ h
    have h1 : lstrip s = [] := by
      unfold lstrip; exact dropWhile_all hall
    have h2 : rstrip s = [] := by
      unfold rstrip
      rw [dropWhile_all (by intro c hc; exact hall c (List.mem_reverse.1 hc))]
      rfl
    rw [h1, h2]; rfl

theorem strip_lstrip (s : Str) : strip (lstrip s) = strip s := by
  unfold strip; rw [← lstrip_rstrip_comm, lstrip_lstrip]

theorem strip_rstrip (s : Str) : strip (rstrip s) = strip s := by
  unfold strip; rw [rstrip_rstrip]

theorem strip_strip (s : Str) : strip (strip s) = strip s := by
  unfold strip
  rw [← lstrip_rstrip_comm, lstrip_lstrip, rstrip_rstrip]

theorem mem_lstrip {c : Char} {s : Str} (h : c ∈ lstrip s) : c ∈ s :=
  (List.dropWhile_suffix _).subset h

theorem mem_rstrip {c : Char} {s : Str} (h : c ∈ rstrip s) : c ∈ s := by
  unfold rstrip at h
  exact List.mem_reverse.1 ((List.dropWhile_suffix _).subset (List.mem_reverse.1 h))

theorem mem_strip {c : Char} {s : Str} (h : c ∈ strip s) : c ∈ s := mem_rstrip (mem_lstrip h)

theorem mem_strip_iff {c : Char} {s : Str} (hc : isWs c = false) : c ∈ strip s ↔ c ∈ s := by
  refine ⟨mem_strip, fun h => ?_⟩
  obtain ⟨l, r, rfl⟩ := List.append_of_mem h
  rw [strip_keep hc]
  exact List.mem_append.2 (Or.inr (List.mem_cons_self ..))

/-! ## dict -/

theorem get_put {β : Type} (d : List (Str × β)) (k k' : Str) (v : β) :
    get (put d k v) k' = if k' = k then some v else get d k' := by
  unfold put get
  split
  · next h =>
    induction d with
    | nil => simp at h
    | cons p d ih =>
      simp only [List.map_cons, List.find?_cons]
      by_cases hp : p.1 = k
      · subst hp
        by_cases hk : p.1 = k'
        · subst hk; simp
        · have hk' : ¬ k' = p.1 := fun e => hk e.symm
          simp only [BEq.rfl, if_true, beq_eq_false_iff_ne.2 hk, if_neg hk', if_false]
          have aux : ∀ d : List (Str × β), (d.map fun q => if q.1 == p.1 then (p.1, v) else q).find?
              (fun q => q.1 == k') = d.find? (fun q => q.1 == k') := by
            intro d
            induction d with
            | nil => rfl
            | cons q d ihd =>
              simp only [List.map_cons, List.find?_cons]
              by_cases hq : q.1 = p.1
              · simp only [hq, BEq.rfl, if_true, beq_eq_false_iff_ne.2 hk, ihd]
              · simp only [beq_eq_false_iff_ne.2 hq, Bool.false_eq_true, if_false, ihd]
          rw [aux]
      · have h' : d.any (fun p => p.1 == k) = true := by
          simpa [List.any_cons, beq_eq_false_iff_ne.2 hp] using h
        simp only [beq_eq_false_iff_ne.2 hp, Bool.false_eq_true, if_false]
        cases hk : (p.1 == k') with
        | true =>
          have : ¬ k' = k := fun e => hp ((eq_of_beq hk).trans e)
          simp [this]
        | false => simp only; exact ih h'
  · next h =>
    have hnone : d.find? (fun p => p.1 == k) = none := by
      rw [List.find?_eq_none]
      intro p hp hc
      exact h (List.any_eq_true.2 ⟨p, hp, hc⟩)
    rw [List.find?_append]
    by_cases hk : k' = k
    · subst hk; simp [hnone]
    · simp only [List.find?_cons, beq_eq_false_iff_ne.2 (fun e => hk e.symm), List.find?_nil, Option.or_none,
        if_neg hk]

theorem keys_put {β : Type} (d : List (Str × β)) (k : Str) (v : β) :
    (put d k v).map (·.1) = if k ∈ d.map (·.1) then d.map (·.1) else d.map (·.1) ++ [k] := by
  unfold put
  have hiff : (d.any (fun p => p.1 == k) = true) ↔ k ∈ d.map (·.1) := by
    simp [List.any_eq_true, List.mem_map]
  by_cases h : k ∈ d.map (·.1)
  · rw [if_pos (hiff.2 h), if_pos h, List.map_map]
    apply List.map_congr_left
    intro p _
    simp only [Function.comp]
    split
    · next hp => exact (eq_of_beq hp).symm
    · rfl
  · rw [if_neg (fun e => h (hiff.1 e)), if_neg h]; simp

theorem nodup_put {β : Type} {d : List (Str × β)} (h : (d.map (·.1)).Nodup) (k : Str) (v : β) :
    ((put d k v).map (·.1)).Nodup := by
  rw [keys_put]
  split
  · exact h
  · next hk =>
    rw [List.nodup_append]
    refine ⟨h, by simp, ?_⟩
    intro a ha b hb
    simp only [List.mem_singleton] at hb
    subst hb
    rintro rfl; exact hk ha

/-! ## C39 -/

theorem kindStep_eq (s : Bool × List (Str × Str)) (k : Str) :
    (∃ name spec, IsKind k name spec ∧ kindStep s k = (s.1, put s.2 name spec)) ∨
    ((∀ name spec, ¬ IsKind k name spec) ∧ kindStep s k = (true, s.2)) := by
  have heq : isWs '=' = false := by decide
  unfold kindStep
  by_cases h : ∃ a b, splitC '=' (strip k) = [a, b]
  · obtain ⟨a, b, hab⟩ := h
    left
    obtain ⟨e, ha, hb⟩ := splitC_two hab
    have hm : '=' ∈ k := (mem_strip_iff heq).1 (by rw [e]; simp)
    obtain ⟨l, r, rfl, hl⟩ := exists_first hm
    rw [strip_keep heq] at e hab
    rw [splitC_app (fun h => hl (mem_lstrip h))] at hab
    injection hab with h1 h2
    have hr : '=' ∉ r := by
      intro hr
      have : '=' ∈ rstrip r := by
        obtain ⟨x, y, rfl⟩ := List.append_of_mem hr
        rw [rstrip_keep heq]; simp
      obtain ⟨x, y, e2, hx⟩ := exists_first this
      rw [e2, splitC_app hx] at h2
      injection h2 with _ h3
      exact splitC_ne_nil _ _ h3
    refine ⟨strip l, strip r, ⟨l, r, rfl, hl, hr, rfl, rfl⟩, ?_⟩
    rw [strip_keep heq, splitC_app (fun h => hl (mem_lstrip h)), splitC_none (fun h => hr (mem_rstrip h))]
    simp only [List.map_cons, List.map_nil, strip_lstrip, strip_rstrip]
  · right
    refine ⟨?_, ?_⟩
    · rintro name spec ⟨l, r, rfl, hl, hr, -, -⟩
      apply h
      refine ⟨lstrip l, rstrip r, ?_⟩
      rw [strip_keep heq, splitC_app (fun h => hl (mem_lstrip h)), splitC_none (fun h => hr (mem_rstrip h))]
    · split
      · next a b hm =>
        exfalso
        apply h
        match hs : splitC '=' (strip k) with
        | [] => rw [hs] at hm; cases hm
        | [x] => rw [hs] at hm; simp at hm
        | [x, y] => exact ⟨x, y, rfl⟩
        | x :: y :: z :: w => rw [hs] at hm; simp at hm
      · rfl

theorem IsKind.unique {k n s n' s' : List Char} (h : IsKind k n s) (h' : IsKind k n' s') : n = n' ∧ s = s' := by
  obtain ⟨l, r, rfl, hl, hr, rfl, rfl⟩ := h
  obtain ⟨l', r', e, hl', hr', rfl, rfl⟩ := h'
  have h1 := splitC_app (r := r) hl
  rw [e, splitC_app hl'] at h1
  injection h1 with h1 h2
  rw [splitC_none hr, splitC_none hr'] at h2
  injection h2 with h2
  exact ⟨by rw [h1], by rw [h2]⟩

theorem foldl_kind_bad (ks : List Str) (s : Bool × List (Str × Str)) :
    (ks.foldl kindStep s).1 = true ↔ s.1 = true ∨ ∃ k ∈ ks, ∀ n sp, ¬ IsKind k n sp := by
  induction ks generalizing s with
  | nil => simp
  | cons k ks ih =>
    rw [List.foldl_cons, ih]
    rcases kindStep_eq s k with ⟨n, sp, hk, e⟩ | ⟨hk, e⟩
    · rw [e]
      simp only [List.mem_cons, exists_eq_or_imp]
      constructor
      · rintro (h | h)
        · exact Or.inl h
        · exact Or.inr (Or.inr h)
      · rintro (h | h | h)
        · exact Or.inl h
        · exact absurd hk (h n sp)
        · exact Or.inr h
    · rw [e]
      simp only [true_or, List.mem_cons, exists_eq_or_imp, true_iff]
      exact Or.inr (Or.inl hk)

theorem foldl_kind_get (ks : List Str) (s : Bool × List (Str × Str)) (n sp : Str) :
    get (ks.foldl kindStep s).2 n = some sp ↔
      LastSpec ks n sp ∨ (get s.2 n = some sp ∧ ∀ k ∈ ks, ∀ x, ¬ IsKind k n x) := by
  induction ks generalizing s with
  | nil =>
    simp only [List.foldl_nil, List.not_mem_nil, false_implies, implies_true, and_true]
    constructor
    · exact Or.inr
    · rintro (⟨b, k, a, h, _⟩ | h)
      · cases b <;> cases h
      · exact h
  | cons k ks ih =>
    rw [List.foldl_cons, ih]
    have hcons : LastSpec (k :: ks) n sp ↔
        LastSpec ks n sp ∨ (IsKind k n sp ∧ ∀ k' ∈ ks, ∀ x, ¬ IsKind k' n x) := by
      constructor
      · rintro ⟨b, k', a, e, h1, h2⟩
        cases b with
        | nil => cases e; exact Or.inr ⟨h1, h2⟩
        | cons y b => cases e; exact Or.inl ⟨b, k', a, rfl, h1, h2⟩
      · rintro (⟨b, k', a, rfl, h1, h2⟩ | ⟨h1, h2⟩)
        · exact ⟨k :: b, k', a, rfl, h1, h2⟩
        · exact ⟨[], k, ks, rfl, h1, h2⟩
    rw [hcons]
    rcases kindStep_eq s k with ⟨m, q, hk, e⟩ | ⟨hk, e⟩
    · rw [e]
      simp only [get_put]
      by_cases hn : n = m
      · subst hn
        simp only [if_true, Option.some.injEq]
        constructor
        · rintro (h | ⟨rfl, h⟩)
          · exact Or.inl (Or.inl h)
          · exact Or.inl (Or.inr ⟨hk, h⟩)
        · rintro ((h | ⟨h1, h2⟩) | ⟨_, h⟩)
          · exact Or.inl h
          · exact Or.inr ⟨(hk.unique h1).2, h2⟩
          · exact absurd hk (h k (List.mem_cons_self ..) q)
      · rw [if_neg hn]
        constructor
        · rintro (h | ⟨h1, h2⟩)
          · exact Or.inl (Or.inl h)
          · refine Or.inr ⟨h1, ?_⟩
            intro k' hk' x
            rcases List.mem_cons.1 hk' with rfl | hk'
            · intro hx; exact hn (hx.unique hk).1
            · exact h2 k' hk' x
        · rintro ((h | ⟨h1, _⟩) | ⟨h1, h2⟩)
          · exact Or.inl h
          · exact absurd (h1.unique hk).1 hn
          · exact Or.inr ⟨h1, fun k' hk' => h2 k' (List.mem_cons_of_mem _ hk')⟩
    · rw [e]
      constructor
      · rintro (h | ⟨h1, h2⟩)
        · exact Or.inl (Or.inl h)
        · refine Or.inr ⟨h1, ?_⟩
          intro k' hk' x
          rcases List.mem_cons.1 hk' with rfl | hk'
          · exact hk n x
          · exact h2 k' hk' x
      · rintro ((h | ⟨h1, _⟩) | ⟨h1, h2⟩)
        · exact Or.inl h
        · exact absurd h1 (hk n sp)
        · exact Or.inr ⟨h1, fun k' hk' => h2 k' (List.mem_cons_of_mem _ hk')⟩

theorem foldl_kind_nodup (ks : List Str) (s : Bool × List (Str × Str)) (h : (s.2.map (·.1)).Nodup) :
    (((ks.foldl kindStep s).2).map (·.1)).Nodup := by
  induction ks generalizing s with
  | nil => exact h
  | cons k ks ih =>
    rw [List.foldl_cons]
    apply ih
    rcases kindStep_eq s k with ⟨m, q, hk, e⟩ | ⟨hk, e⟩
    · rw [e]; exact nodup_put h _ _
    · rw [e]; exact h

/-- **C39**: the environment is rejected exactly if some entry is not of the form `name=spec`. -/
theorem kinds_rejected_iff (kinds : List Str) :
    kindDict kinds = none ↔ ∃ k ∈ kinds, ∀ n s, ¬ IsKind k n s := by
  unfold kindDict
  simp only
  have := foldl_kind_bad kinds (false, [])
  simp only [Bool.false_eq_true, false_or] at this
  rw [← this]
  cases (kinds.foldl kindStep (false, [])).1 with
  | true => simp only [if_true]
  | false => rw [if_neg Bool.false_ne_true]; exact ⟨(fun h => nomatch h), (fun h => nomatch h)⟩

theorem get_append_default (d : List (Str × Str)) (n : Str)
    (h : d.any (fun p => p.1 == "kind_phys".toList) = false) :
    get (d ++ [("kind_phys".toList, "REAL64".toList)]) n =
      if n = "kind_phys".toList then some "REAL64".toList else get d n := by
  have : d ++ [("kind_phys".toList, "REAL64".toList)] = put d "kind_phys".toList "REAL64".toList := by
    unfold put; rw [h]; rfl
  rw [this, get_put]

theorem last_exists {n : Str} {kinds : List Str} {k x : Str} (hk : k ∈ kinds) (hx : IsKind k n x) :
    ∃ sp, LastSpec kinds n sp := by
  induction kinds generalizing k x with
  | nil => cases hk
  | cons y ys ih =>
    by_cases hy : ∃ k ∈ ys, ∃ x, IsKind k n x
    · obtain ⟨k', hk', x', hx'⟩ := hy
      obtain ⟨sp, b, k2, a, e, h1, h2⟩ := ih hk' hx'
      exact ⟨sp, y :: b, k2, a, by rw [e]; rfl, h1, h2⟩
    · have hy' : ∀ k' ∈ ys, ∀ s, ¬ IsKind k' n s := fun k' hk' s hs => hy ⟨k', hk', s, hs⟩
      rcases List.mem_cons.1 hk with rfl | hk
      · exact ⟨x, [], k, ys, rfl, hx, hy'⟩
      · exact absurd hx (hy' k hk x)

/-- **C39**: a kind name is mapped to its last specification; `kind_phys` defaults to `REAL64`;
nothing else is defined. -/
theorem kind_lookup {kinds : List Str} {d : List (Str × Str)} (h : kindDict kinds = some d) (n s : Str) :
    kindSpec d n = some s ↔ LastSpec kinds n s ∨
      (n = "kind_phys".toList ∧ s = "REAL64".toList ∧ ∀ k ∈ kinds, ∀ x, ¬ IsKind k n x) := by
  unfold kindDict at h
  simp only at h
  split at h
  · cases h
  injection h with h
  have key := fun sp => foldl_kind_get kinds (false, []) n sp
  have hg : ∀ sp : Str, get ([] : List (Str × Str)) n = some sp ↔ False := by intro sp; simp [get]
  simp only [hg, false_and, or_false] at key
  have hnone : get (kinds.foldl kindStep (false, [])).2 n = none → ∀ k ∈ kinds, ∀ x, ¬ IsKind k n x := by
    intro hn
    intro k hk x hx
    obtain ⟨sp, hsp⟩ := last_exists hk hx
    rw [(key sp).2 hsp] at hn; cases hn
  generalize (kinds.foldl kindStep (false, [])).2 = dd at *
  unfold kindSpec
  cases hany : dd.any (fun p => p.1 == "kind_phys".toList) with
  | true =>
    rw [hany, if_pos rfl] at h
    subst h
    rw [key s]
    constructor
    · exact Or.inl
    · rintro (h | ⟨rfl, _, h⟩)
      · exact h
      · exfalso
        obtain ⟨p, hp, he⟩ := List.any_eq_true.1 hany
        have : (get dd "kind_phys".toList).isSome = true := by
          unfold get
          rw [Option.isSome_map, List.find?_isSome]
          exact ⟨p, hp, he⟩
        obtain ⟨v, hv⟩ := Option.isSome_iff_exists.1 this
        obtain ⟨b, k, a, e, h1, _⟩ := (key v).1 hv
        exact h k (by rw [e]; simp) v h1
  | false =>
    rw [hany, if_neg (by simp)] at h
    subst h
    rw [get_append_default _ _ hany]
    by_cases hn : n = "kind_phys".toList
    · rw [if_pos hn]
      have hget : get dd n = none := by
        unfold get
        rw [Option.map_eq_none_iff, List.find?_eq_none]
        intro p hp hc
        have : dd.any (fun p => p.1 == "kind_phys".toList) = true :=
          List.any_eq_true.2 ⟨p, hp, by rw [← hn]; exact hc⟩
        rw [hany] at this; cases this
      constructor
      · intro e
        injection e with e
        exact Or.inr ⟨hn, e.symm, hnone hget⟩
      · rintro (h | ⟨_, h, _⟩)
        · rw [(key s).2 h] at hget; cases hget
        · rw [h]
    · rw [if_neg hn, key s]
      constructor
      · exact Or.inl
      · rintro (h | ⟨h, _⟩)
        · exact h
        · exact absurd h hn

/-- **C39**: `kind_phys` is always defined, and no kind name is listed twice. -/
theorem kind_types_ok {kinds : List Str} {d : List (Str × Str)} (h : kindDict kinds = some d) :
    "kind_phys".toList ∈ kindTypes d ∧ (kindTypes d).Nodup := by
  unfold kindDict at h
  simp only at h
  split at h
  · cases h
  injection h with h
  have hnd := foldl_kind_nodup kinds (false, []) List.nodup_nil
  generalize (kinds.foldl kindStep (false, [])).2 = dd at *
  unfold kindTypes
  cases hany : dd.any (fun p => p.1 == "kind_phys".toList) with
  | true =>
    rw [hany, if_pos rfl] at h
    subst h
    obtain ⟨p, hp, he⟩ := List.any_eq_true.1 hany
    exact ⟨List.mem_map.2 ⟨p, hp, eq_of_beq he⟩, hnd⟩
  | false =>
    rw [hany, if_neg (by simp)] at h
    subst h
    have e : dd ++ [("kind_phys".toList, "REAL64".toList)] = put dd "kind_phys".toList "REAL64".toList := by
      unfold put; rw [hany]; rfl
    refine ⟨by simp, ?_⟩
    rw [e]
    exact nodup_put hnd _ _

/-- Non-trivial instance. -/
example : kindDict [" kind_phys = REAL32".toList, "kd=REAL64".toList, "kind_phys=REAL64".toList] =
    some [("kind_phys".toList, "REAL64".toList), ("kd".toList, "REAL64".toList)] := by decide

/-- **C39**, what is not checked: an empty name or specification is accepted. -/
theorem empty_kind_accepted : kindDict ["=".toList] = some [([], []), ("kind_phys".toList, "REAL64".toList)] := by
  decide

/-! ## C53: preprocessor definitions -/

theorem defStep_def {item name : Str} {v : Option Str} (h : IsDef item name v) (d : List (Str × Option Str)) :
    defStep d item = put d name v := by
  obtain ⟨key, hk, hv⟩ := h
  have hkey : (if key.take 2 = "-D".toList then key.drop 2 else key) = name := by
    rcases hk with ⟨rfl, h⟩ | rfl
    · rw [if_neg h]
    · rfl
  unfold defStep
  cases v with
  | none =>
    obtain ⟨h1, h2⟩ := hv
    rw [split1_none h2]
    simp only [List.map_cons, List.map_nil, h1, hkey, List.head?_nil]
  | some v =>
    obtain ⟨l, r, rfl, hl, h1, h2⟩ := hv
    rw [split1_app hl]
    simp only [List.map_cons, List.map_nil, h1, h2, hkey, List.head?_cons]

/-- Every item is a definition of exactly one name. -/
theorem def_exists (item : Str) : ∃ name v, IsDef item name v := by
  have hkey : ∀ key : Str, ∃ name, name = key ∧ key.take 2 ≠ "-D".toList ∨ key = "-D".toList ++ name := by
    intro key
    by_cases h : key.take 2 = "-D".toList
    · exact ⟨key.drop 2, Or.inr (by rw [← h, List.take_append_drop])⟩
    · exact ⟨key, Or.inl ⟨rfl, h⟩⟩
  by_cases he : '=' ∈ item
  · obtain ⟨l, r, rfl, hl⟩ := exists_first he
    obtain ⟨n, hn⟩ := hkey (strip l)
    exact ⟨n, some (strip r), strip l, hn, l, r, rfl, hl, rfl, rfl⟩
  · obtain ⟨n, hn⟩ := hkey (strip item)
    exact ⟨n, none, strip item, hn, rfl, he⟩

theorem IsDef.unique {item n n' : Str} {v v' : Option Str} (h : IsDef item n v) (h' : IsDef item n' v') :
    n = n' ∧ v = v' := by
  have h1 := defStep_def h []
  rw [defStep_def h'] at h1
  simp only [put, List.any_nil, Bool.false_eq_true, if_false, List.nil_append, List.cons.injEq, Prod.mk.injEq,
    and_true] at h1
  exact ⟨h1.1.symm, h1.2.symm⟩

/-- The last item defining `name`. -/
def LastDef (items : List Str) (name : Str) (v : Option Str) : Prop :=
  ∃ before k after, items = before ++ k :: after ∧ IsDef k name v ∧ ∀ k' ∈ after, ∀ w, ¬ IsDef k' name w

theorem foldl_def_get (ks : List Str) (d : List (Str × Option Str)) (n : Str) (v : Option Str) :
    get (ks.foldl defStep d) n = some v ↔
      LastDef ks n v ∨ (get d n = some v ∧ ∀ k ∈ ks, ∀ x, ¬ IsDef k n x) := by
  induction ks generalizing d with
  | nil =>
    simp only [List.foldl_nil, List.not_mem_nil, false_implies, implies_true, and_true]
    constructor
    · exact Or.inr
    · rintro (⟨b, k, a, h, _⟩ | h)
      · cases b <;> cases h
      · exact h
  | cons k ks ih =>
    rw [List.foldl_cons, ih]
    have hcons : LastDef (k :: ks) n v ↔
        LastDef ks n v ∨ (IsDef k n v ∧ ∀ k' ∈ ks, ∀ x, ¬ IsDef k' n x) := by
      constructor
      · rintro ⟨b, k', a, e, h1, h2⟩
        cases b with
        | nil => cases e; exact Or.inr ⟨h1, h2⟩
        | cons y b => cases e; exact Or.inl ⟨b, k', a, rfl, h1, h2⟩
      · rintro (⟨b, k', a, rfl, h1, h2⟩ | ⟨h1, h2⟩)
        · exact ⟨k :: b, k', a, rfl, h1, h2⟩
        · exact ⟨[], k, ks, rfl, h1, h2⟩
    rw [hcons]
    obtain ⟨m, q, hk⟩ := def_exists k
    rw [defStep_def hk, get_put]
    by_cases hn : n = m
    · subst hn
      simp only [if_true, Option.some.injEq]
      constructor
      · rintro (h | ⟨rfl, h⟩)
        · exact Or.inl (Or.inl h)
        · exact Or.inl (Or.inr ⟨hk, h⟩)
      · rintro ((h | ⟨h1, h2⟩) | ⟨_, h⟩)
        · exact Or.inl h
        · exact Or.inr ⟨(hk.unique h1).2, h2⟩
        · exact absurd hk (h k (List.mem_cons_self ..) q)
    · rw [if_neg hn]
      constructor
      · rintro (h | ⟨h1, h2⟩)
        · exact Or.inl (Or.inl h)
        · refine Or.inr ⟨h1, ?_⟩
          intro k' hk' x
          rcases List.mem_cons.1 hk' with rfl | hk'
          · intro hx; exact hn (hx.unique hk).1
          · exact h2 k' hk' x
      · rintro ((h | ⟨h1, _⟩) | ⟨h1, h2⟩)
        · exact Or.inl h
        · exact absurd (h1.unique hk).1 hn
        · exact Or.inr ⟨h1, fun k' hk' => h2 k' (List.mem_cons_of_mem _ hk')⟩

/-- **C53**: given as a list, the symbols defined are exactly those of the items, each with the value
of its last item; a leading `-D` is dropped. -/
theorem defs_of_list (items : List Str) (n : Str) (v : Option Str) :
    get (preprocDefs (.list items)) n = some v ↔ LastDef items n v := by
  unfold preprocDefs defList
  rw [foldl_def_get]
  simp [get]

example : preprocDefs (.list ["-DFOO".toList, " BAR = 2=3".toList, "FOO=1".toList]) =
    [("FOO".toList, some "1".toList), ("BAR".toList, some "2=3".toList)] := by decide

theorem defStep_strip (d : List (Str × Option Str)) (item : Str) : defStep d (strip item) = defStep d item := by
  have heq : isWs '=' = false := by decide
  unfold defStep
  by_cases he : '=' ∈ item
  · obtain ⟨l, r, rfl, hl⟩ := exists_first he
    rw [strip_keep heq, split1_app hl, split1_app (fun h => hl (mem_lstrip h))]
    simp only [List.map_cons, List.map_nil, strip_lstrip, strip_rstrip]
  · rw [split1_none he, split1_none (fun h => he (mem_strip h))]
    simp only [List.map_cons, List.map_nil, strip_strip]

theorem foldl_strip (items : List Str) (d : List (Str × Option Str)) :
    (items.map strip).foldl defStep d = items.foldl defStep d := by
  induction items generalizing d with
  | nil => rfl
  | cons x xs ih => rw [List.map_cons, List.foldl_cons, List.foldl_cons, defStep_strip, ih]

theorem splitC_joinC {c : Char} : ∀ (items : List Str), items ≠ [] → (∀ x ∈ items, c ∉ x) →
    splitC c (joinC c items) = items
  | [], h, _ => absurd rfl h
  | [x], _, h => splitC_none (h x (List.mem_cons_self ..))
  | x :: y :: ys, _, h => by
    rw [joinC, splitC_app (h x (List.mem_cons_self ..)),
      splitC_joinC (y :: ys) (by simp) (fun z hz => h z (List.mem_cons_of_mem _ hz))]
    simp

/-- **C53**: a comma-separated string of two or more items means the same as the list. -/
theorem defs_comma (x y : Str) (items : List Str) (h : ∀ z ∈ x :: y :: items, ',' ∉ z) :
    preprocDefs (.str (joinC ',' (x :: y :: items))) = preprocDefs (.list (x :: y :: items)) := by
  unfold preprocDefs defList
  have hc : ',' ∈ joinC ',' (x :: y :: items) := by
    rw [joinC]
    · simp
    · simp
  have hne : ¬ (joinC ',' (x :: y :: items) = [] ∨ joinC ',' (x :: y :: items) = "UNSET".toList) := by
    rintro (e | e)
    · rw [e] at hc; cases hc
    · rw [e] at hc; revert hc; decide
  show List.foldl defStep [] (if _ then _ else _) = _
  rw [if_neg hne, if_pos hc, splitC_joinC _ (by simp) h]
  exact foldl_strip _ _

example : preprocDefs (.str "-DFOO, BAR=2".toList) = [("FOO".toList, none), ("BAR".toList, some "2".toList)] := by
  decide

/-- **C53**: so does a string separated by blanks, if the items have no blanks or commas. -/
theorem defs_space (items : List Str) (hne : items ≠ []) (h : ∀ z ∈ items, ' ' ∉ z ∧ ',' ∉ z ∧ z ≠ [])
    (hu : items ≠ ["UNSET".toList]) :
    preprocDefs (.str (joinC ' ' items)) = preprocDefs (.list items) := by
  unfold preprocDefs defList
  have hs := splitC_joinC (c := ' ') items hne (fun x hx => (h x hx).1)
  have h1 : ¬ (joinC ' ' items = [] ∨ joinC ' ' items = "UNSET".toList) := by
    rintro (e | e)
    · rw [e] at hs
      simp only [splitC] at hs
      rw [← hs] at h
      exact (h [] (by simp)).2.2 rfl
    · rw [e] at hs
      exact hu (hs.symm.trans (splitC_none (by decide)))
  have h2 : ',' ∉ joinC ' ' items := by
    clear hs h1 hu hne
    induction items with
    | nil => simp [joinC]
    | cons x xs ih =>
      cases xs with
      | nil => exact (h x (List.mem_cons_self ..)).2.1
      | cons y ys =>
        rw [joinC]
        · intro hc
          rcases List.mem_append.1 hc with hc | hc
          · exact (h x (List.mem_cons_self ..)).2.1 hc
          · rcases List.mem_cons.1 hc with hc | hc
            · revert hc; decide
            · exact ih (fun z hz => h z (List.mem_cons_of_mem _ hz)) hc
        · simp
  show List.foldl defStep [] (if _ then _ else _) = _
  rw [if_neg h1, if_neg h2, hs]
  have h3 : items.filter (!·.isEmpty) = items := by
    rw [List.filter_eq_self]
    intro x hx
    cases x with
    | nil => exact absurd rfl (h [] hx).2.2
    | cons _ _ => rfl
  rw [h3]
  exact foldl_strip _ _

/-- A stray comma defines the empty symbol. -/
theorem stray_comma : preprocDefs (.str "FOO,".toList) = [("FOO".toList, none), ([], none)] := by decide

end Ccpp.Env
