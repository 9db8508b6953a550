import Verif.Spec.PrebuildMatch
import Verif.Props.DataTable
/-!
# C69: lemmas about the dictionaries of prebuild
-/
namespace Ccpp.PB

theorem startsWith_iff {p s : Str} : startsWith p s = true ↔ ∃ r, s = p ++ r := by
  unfold startsWith
  rw [Option.isSome_iff_exists]
  constructor
  · rintro ⟨r, h⟩; exact ⟨r, dropPrefix?_eq_some.1 h⟩
  · rintro ⟨r, h⟩; exact ⟨r, dropPrefix?_eq_some.2 h⟩

theorem compatible_iff {a b : Var} : compatible a b = true ↔ Compat a b := by
  unfold compatible Compat KindOk Var.rank
  change _ ↔ a.std = b.std ∧ a.type = b.type ∧ a.dims.length = b.dims.length ∧
    (a.kind = b.kind ∨ a.type = characterT ∧
      ((a.kind = lenStar ∧ ∃ r, b.kind = lenEq ++ r) ∨ (b.kind = lenStar ∧ ∃ r, a.kind = lenEq ++ r)))
  generalize characterT = c
  generalize lenStar = ls
  generalize lenEq = le
  rw [← startsWith_iff, ← startsWith_iff]
  split
  · rename_i h
    simp only [Bool.and_eq_true, Bool.or_eq_true, beq_iff_eq] at h ⊢
    constructor
    · rintro ⟨⟨h1, h2⟩, h3⟩
      refine ⟨h1, h2, h3, Or.inr ⟨h.1, ?_⟩⟩
      rcases h.2 with h' | h'
      · exact Or.inl h'
      · exact Or.inr ⟨h'.2, h'.1⟩
    · rintro ⟨h1, h2, h3, _⟩; exact ⟨⟨h1, h2⟩, h3⟩
  · rename_i h
    simp only [Bool.and_eq_true, Bool.or_eq_true, beq_iff_eq] at h ⊢
    constructor
    · rintro ⟨⟨⟨h1, h2⟩, h3⟩, h4⟩; exact ⟨h1, h2, h4, Or.inl h3⟩
    · rintro ⟨h1, h2, h4, h3 | ⟨h5, h6⟩⟩
      · exact ⟨⟨⟨h1, h2⟩, h3⟩, h4⟩
      · exact absurd ⟨h5, by rcases h6 with h6 | h6; exact Or.inl h6; exact Or.inr ⟨h6.2, h6.1⟩⟩ h

theorem Compat.refl (a : Var) : Compat a a := ⟨rfl, rfl, rfl, Or.inl rfl⟩

/-! ## Representation -/

/-- A dictionary holds exactly the variables of a list. -/
def Rep (d : Dict) (l : List Var) : Prop :=
  (keys d).Nodup ∧ ∀ k, get d k = if reqs l k = [] then none else some (reqs l k)

theorem reqs_append (l m : List Var) (k : Str) : reqs (l ++ m) k = reqs l k ++ reqs m k := by
  unfold reqs; rw [List.filter_append]

theorem mem_reqs {l : List Var} {k : Str} {v : Var} : v ∈ reqs l k ↔ v ∈ l ∧ v.std = k := by
  unfold reqs; rw [List.mem_filter]; simp

theorem rep_nil : Rep [] [] := ⟨List.nodup_nil, fun k => rfl⟩

theorem get_none {d : Dict} {k : Str} : get d k = none ↔ k ∉ keys d := by
  induction d with
  | nil => simp [get, keys]
  | cons e d ih =>
    rw [get]
    split
    · rename_i h; simp [keys, h]
    · rename_i h
      rw [ih]
      simp only [keys, List.map_cons, List.mem_cons, not_or]
      exact ⟨fun hh => ⟨fun h' => h h'.symm, hh⟩, fun hh => hh.2⟩

theorem mem_keys {d : Dict} {k : Str} : k ∈ keys d ↔ ∃ l, get d k = some l := by
  constructor
  · intro h
    cases hg : get d k with
    | none => exact absurd h (get_none.1 hg)
    | some l => exact ⟨l, rfl⟩
  · rintro ⟨l, h⟩
    apply Decidable.by_contra
    intro hn
    rw [get_none.2 hn] at h; cases h

theorem get_append (d e : Dict) (k : Str) : get (d ++ e) k = match get d k with | none => get e k | some l => some l := by
  induction d with
  | nil => rfl
  | cons x d ih =>
    rw [List.cons_append, get, get]
    split
    · rfl
    · exact ih

theorem keys_append (d e : Dict) : keys (d ++ e) = keys d ++ keys e := List.map_append

theorem keys_appendTo (d : Dict) (k : Str) (v : Var) : keys (appendTo d k v) = keys d := by
  induction d with
  | nil => rfl
  | cons x d ih =>
    rw [appendTo]
    split
    · rfl
    · simp only [keys, List.map_cons]; rw [show List.map (·.1) (appendTo d k v) = List.map (·.1) d from ih]

theorem get_appendTo (d : Dict) (k : Str) (v : Var) (j : Str) :
    get (appendTo d k v) j = (get d j).map fun l => if j = k then l ++ [v] else l := by
  induction d with
  | nil => rfl
  | cons x d ih =>
    rw [appendTo]
    split
    · rename_i h
      rw [get, get]
      split
      · rename_i h2
        have h2' : x.1 = j := h2
        simp [← h, h2']
      · rename_i h2
        have : ¬ j = k := fun h' => h2 (by rw [h', h])
        cases get d j <;> simp [this]
    · rename_i h
      rw [get, get]
      split
      · rename_i h2
        have : ¬ j = k := fun h' => h (by rw [h2, h'])
        simp [this]
      · exact ih

/-- Two variables of the same name agree. -/
def SameAgree (a b : Var) : Prop := a.std = b.std → Compat a b

theorem reqs_single (v : Var) (k : Str) : reqs [v] k = if v.std = k then [v] else [] := by
  unfold reqs
  by_cases h : v.std = k
  · simp [h]
  · simp [h]

theorem addVar_some {d : Dict} {l : List Var} (h : Rep d l) {v : Var} (hc : ∀ a ∈ l, SameAgree a v) :
    ∃ d', addVar d v = some d' ∧ Rep d' (l ++ [v]) := by
  unfold addVar
  cases hg : get d v.std with
  | none =>
    have h0 : reqs l v.std = [] := by
      have := h.2 v.std; rw [hg] at this
      by_cases hh : reqs l v.std = []
      · exact hh
      · rw [if_neg hh] at this; cases this
    refine ⟨_, rfl, ?_, ?_⟩
    · rw [keys_append, List.nodup_append]
      refine ⟨h.1, by simp [keys], ?_⟩
      intro a ha b hb
      have hb' : b = v.std := by simpa [keys] using hb
      subst hb'
      rintro rfl
      exact (get_none.1 hg) ha
    · intro k
      rw [get_append, h.2 k, reqs_append, reqs_single]
      by_cases hk : v.std = k
      · subst hk
        simp [h0, get]
      · by_cases hr : reqs l k = []
        · simp [hr, get, hk]
        · simp [hr, hk]
  | some m =>
    have hm : m = reqs l v.std ∧ reqs l v.std ≠ [] := by
      have := h.2 v.std; rw [hg] at this
      by_cases hh : reqs l v.std = []
      · rw [if_pos hh] at this; cases this
      · rw [if_neg hh] at this; exact ⟨Option.some.inj this, hh⟩
    have hall : (m.all fun e => compatible e v) = true := by
      rw [List.all_eq_true]
      intro e he
      rw [hm.1, mem_reqs] at he
      exact compatible_iff.2 (hc e he.1 he.2)
    simp only [hall, if_true]
    refine ⟨_, rfl, ?_, ?_⟩
    · rw [keys_appendTo]; exact h.1
    · intro k
      rw [get_appendTo, h.2 k, reqs_append, reqs_single]
      by_cases hk : v.std = k
      · subst hk
        simp [hm.2]
      · by_cases hr : reqs l k = []
        · simp [hr, hk]
        · have : ¬ k = v.std := fun h' => hk h'.symm
          simp [hr, hk, this]

theorem addVar_inv {d : Dict} {l : List Var} (h : Rep d l) {v : Var} {d' : Dict} (hs : addVar d v = some d') :
    ∀ a ∈ l, SameAgree a v := by
  intro a ha hav
  unfold addVar at hs
  have hne : reqs l v.std ≠ [] := fun h0 => by
    have : a ∈ reqs l v.std := mem_reqs.2 ⟨ha, hav⟩
    rw [h0] at this; cases this
  have hg := h.2 v.std
  rw [if_neg hne] at hg
  rw [hg] at hs
  simp only at hs
  split at hs
  · rename_i hall
    rw [List.all_eq_true] at hall
    exact compatible_iff.1 (hall a (mem_reqs.2 ⟨ha, hav⟩))
  · cases hs

theorem addVars_spec {vs : List Var} : ∀ {d : Dict} {l : List Var}, Rep d l →
    ((∃ d', addVars d vs = some d') ↔ vs.Pairwise SameAgree ∧ ∀ a ∈ l, ∀ b ∈ vs, SameAgree a b) ∧
    ∀ d', addVars d vs = some d' → Rep d' (l ++ vs) := by
  induction vs with
  | nil =>
    intro d l h
    refine ⟨⟨fun _ => ⟨List.Pairwise.nil, fun _ _ _ hb => by cases hb⟩, fun _ => ⟨d, rfl⟩⟩, ?_⟩
    intro d' hd; rw [addVars] at hd; cases hd; rw [List.append_nil]; exact h
  | cons v vs ih =>
    intro d l h
    constructor
    · constructor
      · rintro ⟨d', hd⟩
        rw [addVars] at hd
        cases h1 : addVar d v with
        | none => rw [h1] at hd; cases hd
        | some d1 =>
          rw [h1] at hd
          have hc := addVar_inv h h1
          obtain ⟨d2, h2, hr⟩ := addVar_some h hc
          rw [h1] at h2; cases h2
          have := (ih hr).1.1 ⟨d', hd⟩
          refine ⟨List.pairwise_cons.2 ⟨fun b hb => this.2 v (by simp) b hb, this.1⟩, ?_⟩
          intro a ha b hb
          rcases List.mem_cons.1 hb with rfl | hb
          · exact hc a ha
          · exact this.2 a (by simp [ha]) b hb
      · rintro ⟨hp, hx⟩
        obtain ⟨d1, h1, hr⟩ := addVar_some h (fun a ha => hx a ha v (by simp))
        obtain ⟨hv, hp⟩ := List.pairwise_cons.1 hp
        obtain ⟨d2, h2⟩ := (ih hr).1.2 ⟨hp, by
          intro a ha b hb
          rcases List.mem_append.1 ha with ha | ha
          · exact hx a ha b (by simp [hb])
          · have : a = v := by simpa using ha
            subst this; exact hv b hb⟩
        exact ⟨d2, by rw [addVars, h1]; exact h2⟩
    · intro d' hd
      rw [addVars] at hd
      cases h1 : addVar d v with
      | none => rw [h1] at hd; cases hd
      | some d1 =>
        rw [h1] at hd
        obtain ⟨d2, h2, hr⟩ := addVar_some h (addVar_inv h h1)
        rw [h1] at h2; cases h2
        have := (ih hr).2 d' hd
        rwa [List.append_assoc] at this

theorem noDup_iff {t : List Var} : noDup t = true ↔ t.Pairwise fun a b => a.std ≠ b.std := by
  induction t with
  | nil => simp [noDup]
  | cons v t ih =>
    rw [noDup, Bool.and_eq_true, ih, List.pairwise_cons, List.all_eq_true]
    refine and_congr ⟨fun h b hb hv => ?_, fun h b hb => ?_⟩ Iff.rfl
    · have := h b hb; simp [hv] at this
    · have := h b hb; simp; exact fun h' => this h'.symm

theorem legalTable_iff {t : List Var} : (noDup t = true ∧ mandatory t = true) ↔ LegalTable t := by
  unfold LegalTable mandatory
  rw [noDup_iff]
  refine and_congr Iff.rfl ?_
  change _ ↔ (t = [] ∨ (∃ v ∈ t, v.std = errMsg) ∧ ∃ v ∈ t, v.std = errCode)
  generalize errMsg = x
  generalize errCode = y
  simp only [Bool.or_eq_true, Bool.and_eq_true, List.isEmpty_iff, List.any_eq_true, beq_iff_eq]

theorem addTables_spec {ts : List (List Var)} : ∀ {d : Dict} {l : List Var}, Rep d l →
    ((∃ d', addTables d ts = some d') ↔ (∀ t ∈ ts, LegalTable t) ∧ ts.flatten.Pairwise SameAgree ∧
      ∀ a ∈ l, ∀ b ∈ ts.flatten, SameAgree a b) ∧
    ∀ d', addTables d ts = some d' → Rep d' (l ++ ts.flatten) := by
  induction ts with
  | nil =>
    intro d l h
    refine ⟨⟨fun _ => ⟨fun _ h => (by cases h), List.Pairwise.nil, fun _ _ _ hb => (by cases hb)⟩, fun _ => ⟨d, rfl⟩⟩, ?_⟩
    intro d' hd; rw [addTables] at hd; cases hd; simpa using h
  | cons t ts ih =>
    intro d l h
    have hs := addVars_spec (vs := t) h
    constructor
    · constructor
      · rintro ⟨d', hd⟩
        rw [addTables, addTable] at hd
        split at hd
        · rename_i hn
          cases h1 : addVars d t with
          | none => rw [h1] at hd; cases hd
          | some d1 =>
            rw [h1] at hd
            simp only [Option.bind_some] at hd
            split at hd
            · rename_i hm
              have hc := hs.1.1 ⟨d1, h1⟩
              have := (ih (hs.2 d1 h1)).1.1 ⟨d', hd⟩
              refine ⟨?_, ?_, ?_⟩
              · intro x hx
                rcases List.mem_cons.1 hx with rfl | hx
                · exact legalTable_iff.1 ⟨hn, hm⟩
                · exact this.1 x hx
              · rw [List.flatten_cons, List.pairwise_append]
                exact ⟨hc.1, this.2.1, fun a ha b hb => this.2.2 a (by simp [ha]) b hb⟩
              · intro a ha b hb
                rw [List.flatten_cons, List.mem_append] at hb
                rcases hb with hb | hb
                · exact hc.2 a ha b hb
                · exact this.2.2 a (by simp [ha]) b hb
            · cases hd
        · cases hd
      · rintro ⟨hl, hp, hx⟩
        rw [List.flatten_cons, List.pairwise_append] at hp
        have hlt := legalTable_iff.2 (hl t (by simp))
        obtain ⟨d1, h1⟩ := hs.1.2 ⟨hp.1, fun a ha b hb => hx a ha b (by simp [hb])⟩
        obtain ⟨d2, h2⟩ := (ih (hs.2 d1 h1)).1.2 ⟨fun x hx => hl x (by simp [hx]), hp.2.1, by
          intro a ha b hb
          rcases List.mem_append.1 ha with ha | ha
          · exact hx a ha b (by rw [List.flatten_cons]; exact List.mem_append_right _ hb)
          · exact hp.2.2 a ha b hb⟩
        refine ⟨d2, ?_⟩
        rw [addTables, addTable, if_pos hlt.1, h1]
        simp only [Option.bind_some, if_pos hlt.2]
        exact h2
    · intro d' hd
      rw [addTables, addTable] at hd
      split at hd
      · cases h1 : addVars d t with
        | none => rw [h1] at hd; cases hd
        | some d1 =>
          rw [h1] at hd
          simp only [Option.bind_some] at hd
          split at hd
          · have := (ih (hs.2 d1 h1)).2 d' hd
            rwa [List.append_assoc, ← List.flatten_cons] at this
          · cases hd
      · cases hd

/-! ## Merging -/

theorem mapAll_spec {f : α → Option β} : ∀ {l : List α},
    ((∃ r, mapAll f l = some r) ↔ ∀ x ∈ l, ∃ y, f x = some y) ∧
    ∀ r, mapAll f l = some r → List.Forall₂ (fun x y => f x = some y) l r
  | [] => by
    refine ⟨⟨fun _ _ h => by (cases h), fun _ => ⟨[], rfl⟩⟩, ?_⟩
    intro r h; rw [mapAll] at h; cases h; exact List.Forall₂.nil
  | x :: l => by
    have ih := mapAll_spec (f := f) (l := l)
    constructor
    · constructor
      · rintro ⟨r, h⟩
        rw [mapAll] at h
        cases h1 : f x with
        | none => rw [h1] at h; cases h
        | some y =>
          rw [h1, Option.bind_some] at h
          cases h2 : mapAll f l with
          | none => rw [h2] at h; cases h
          | some r' =>
            intro z hz
            rcases List.mem_cons.1 hz with rfl | hz
            · exact ⟨y, h1⟩
            · exact ih.1.1 ⟨r', h2⟩ z hz
      · intro h
        obtain ⟨y, hy⟩ := h x (by simp)
        obtain ⟨r, hr⟩ := ih.1.2 (fun z hz => h z (by simp [hz]))
        exact ⟨y :: r, by rw [mapAll, hy, Option.bind_some, hr]; rfl⟩
    · intro r h
      rw [mapAll] at h
      cases h1 : f x with
      | none => rw [h1] at h; cases h
      | some y =>
        rw [h1, Option.bind_some] at h
        cases h2 : mapAll f l with
        | none => rw [h2] at h; cases h
        | some r' =>
          rw [h2] at h; cases h
          exact List.Forall₂.cons h1 (ih.2 r' h2)

theorem get_of_pairs {g : Str → Option (List Var)} : ∀ {ks : List Str} {d : Dict},
    List.Forall₂ (fun k (e : Str × List Var) => ((g k).map fun l => (k, l)) = some e) ks d →
    keys d = ks ∧ ∀ k ∈ ks, get d k = g k
  | [], _, .nil => ⟨rfl, fun _ h => by cases h⟩
  | k :: ks, e :: d, .cons h t => by
    have ih := get_of_pairs t
    cases hg : g k with
    | none => rw [hg] at h; cases h
    | some l =>
      rw [hg] at h; cases h
      refine ⟨by simp only [keys, List.map_cons]; rw [show List.map (·.1) d = ks from ih.1], ?_⟩
      intro j hj
      rw [get]
      by_cases hjk : k = j
      · subst hjk; rw [if_pos rfl]; exact hg.symm
      · rw [if_neg hjk]
        rcases List.mem_cons.1 hj with hj | hj
        · exact absurd hj.symm hjk
        · exact ih.2 j hj

/-- The first requests of the same name agree. -/
def HeadsAgree (l m : List Var) : Prop := ∀ k a l' b m', reqs l k = a :: l' → reqs m k = b :: m' → Compat a b

theorem mergeKey_spec {x y : Dict} {l m : List Var} (hx : Rep x l) (hy : Rep y m) (k : Str) :
    ((∃ r, mergeKey x y k = some r) ↔ ∀ a l' b m', reqs l k = a :: l' → reqs m k = b :: m' → Compat a b) ∧
    ∀ r, mergeKey x y k = some r → r = reqs l k ++ reqs m k := by
  unfold mergeKey
  rw [hx.2 k, hy.2 k]
  cases hl : reqs l k with
  | nil =>
    cases hm : reqs m k with
    | nil => simp
    | cons b m' => simp
  | cons a l' =>
    cases hm : reqs m k with
    | nil => simp
    | cons b m' =>
      simp only [reduceCtorEq, if_false]
      by_cases hc : compatible a b = true
      · rw [if_pos hc]
        refine ⟨⟨fun _ => ?_, fun _ => ⟨_, rfl⟩⟩, ?_⟩
        · intro a1 l1 b1 m1 h1 h2; cases h1; cases h2; exact compatible_iff.1 hc
        · intro r hr; cases hr; rfl
      · rw [if_neg hc]
        refine ⟨⟨fun ⟨r, h⟩ => (by cases h), fun h => ?_⟩, fun r h => by cases h⟩
        exact absurd (compatible_iff.2 (h a l' b m' rfl rfl)) hc

theorem merge_spec {x y : Dict} {l m : List Var} (hx : Rep x l) (hy : Rep y m) :
    ((∃ z, merge x y = some z) ↔ HeadsAgree l m) ∧ ∀ z, merge x y = some z → Rep z (l ++ m) := by
  have hset : DT.SortedSetOf (sortedSet (keys x ++ keys y)) (fun k => k ∈ keys x ∨ k ∈ keys y) :=
    DT.sortedSet_spec (fun n => List.mem_append)
  have hsp := mapAll_spec (f := fun k => (mergeKey x y k).map fun l => (k, l)) (l := sortedSet (keys x ++ keys y))
  constructor
  · unfold merge
    rw [hsp.1]
    constructor
    · intro h k a l' b m' h1 h2
      have hk : k ∈ sortedSet (keys x ++ keys y) := by
        rw [hset.2.2]
        left
        rw [mem_keys]
        exact ⟨_, by rw [hx.2 k, h1, if_neg (by simp)]⟩
      obtain ⟨e, he⟩ := h k hk
      cases hm : mergeKey x y k with
      | none => rw [hm] at he; cases he
      | some r => exact (mergeKey_spec hx hy k).1.1 ⟨r, hm⟩ a l' b m' h1 h2
    · intro h k _
      obtain ⟨r, hr⟩ := (mergeKey_spec hx hy k).1.2 (h k)
      exact ⟨(k, r), by rw [hr]; rfl⟩
  · intro z hz
    have h2 := get_of_pairs (hsp.2 z hz)
    refine ⟨by rw [h2.1]; exact hset.2.1, ?_⟩
    intro k
    rw [reqs_append]
    by_cases hk : k ∈ sortedSet (keys x ++ keys y)
    · rw [h2.2 k hk]
      have hne : reqs l k ++ reqs m k ≠ [] := by
        rw [hset.2.2] at hk
        intro h0
        obtain ⟨h1, h3⟩ := List.append_eq_nil_iff.1 h0
        rcases hk with hk | hk
        · obtain ⟨w, hw⟩ := mem_keys.1 hk; rw [hx.2 k, if_pos h1] at hw; cases hw
        · obtain ⟨w, hw⟩ := mem_keys.1 hk; rw [hy.2 k, if_pos h3] at hw; cases hw
      rw [if_neg hne]
      obtain ⟨e, he⟩ := hsp.1.1 ⟨z, hz⟩ k hk
      cases hm : mergeKey x y k with
      | none => rw [hm] at he; cases he
      | some r => rw [(mergeKey_spec hx hy k).2 r hm]
    · have hn : get z k = none := by rw [get_none, h2.1]; exact hk
      rw [hn]
      rw [hset.2.2, not_or] at hk
      have h1 : reqs l k = [] := by
        have := hx.2 k; rw [get_none.2 hk.1] at this
        by_cases hh : reqs l k = []
        · exact hh
        · rw [if_neg hh] at this; cases this
      have h3 : reqs m k = [] := by
        have := hy.2 k; rw [get_none.2 hk.2] at this
        by_cases hh : reqs m k = []
        · exact hh
        · rw [if_neg hh] at this; cases this
      rw [h1, h3]; rfl

theorem legalFile_iff {f : List (List Var)} : (∃ d, addTables [] f = some d) ↔ LegalFile f := by
  rw [(addTables_spec rep_nil).1]
  unfold LegalFile
  constructor
  · rintro ⟨h1, h2, _⟩; exact ⟨h1, h2⟩
  · rintro ⟨h1, h2⟩; exact ⟨h1, h2, fun _ h => by cases h⟩

/-- The first request of a name agrees with the first one in every file. -/
def FirstsFrom (l : List Var) (files : List (List (List Var))) : Prop :=
  ∀ k a l' f b m, reqs (l ++ files.flatten.flatten) k = a :: l' → f ∈ files → reqs f.flatten k = b :: m → Compat a b

theorem firstsFrom_cons {l : List Var} {f : List (List Var)} {fs : List (List (List Var))} :
    FirstsFrom l (f :: fs) ↔ HeadsAgree l f.flatten ∧ FirstsFrom (l ++ f.flatten) fs := by
  have e : l ++ (f :: fs).flatten.flatten = (l ++ f.flatten) ++ fs.flatten.flatten := by simp [List.append_assoc]
  constructor
  · intro h
    constructor
    · intro k a l' b m' h1 h2
      refine h k a (l' ++ (reqs f.flatten k ++ reqs fs.flatten.flatten k)) f b m' ?_ (by simp) h2
      rw [e, reqs_append, reqs_append, h1]; simp
    · intro k a l' g b m h1 h2 h3
      exact h k a l' g b m (by rw [e]; exact h1) (by simp [h2]) h3
  · rintro ⟨h1, h2⟩ k a l' g b m h3 h4 h5
    rw [e] at h3
    rcases List.mem_cons.1 h4 with rfl | h4
    · rw [reqs_append, reqs_append] at h3
      cases hl : reqs l k with
      | nil =>
        rw [hl, h5] at h3
        simp only [List.nil_append, List.cons_append, List.cons.injEq] at h3
        rw [← h3.1]; exact Compat.refl _
      | cons a' l'' =>
        rw [hl] at h3
        simp only [List.cons_append, List.cons.injEq] at h3
        rw [← h3.1]; exact h1 k a' l'' b m hl h5
    · exact h2 k a l' g b m h3 h4 h5

theorem collect_spec {files : List (List (List Var))} : ∀ {d : Dict} {l : List Var}, Rep d l →
    ((∃ d', collect d files = some d') ↔ (∀ f ∈ files, LegalFile f) ∧ FirstsFrom l files) ∧
    ∀ d', collect d files = some d' → Rep d' (l ++ files.flatten.flatten) := by
  induction files with
  | nil =>
    intro d l h
    refine ⟨⟨fun _ => ⟨fun _ h => (by cases h), fun _ _ _ _ _ _ _ h => by cases h⟩, fun _ => ⟨d, rfl⟩⟩, ?_⟩
    intro d' hd; rw [collect] at hd; cases hd; simpa using h
  | cons f fs ih =>
    intro d l h
    constructor
    · constructor
      · rintro ⟨d', hd⟩
        rw [collect] at hd
        cases h1 : addTables [] f with
        | none => rw [h1] at hd; cases hd
        | some m =>
          rw [h1, Option.bind_some] at hd
          have hm := (addTables_spec rep_nil).2 m h1
          rw [List.nil_append] at hm
          cases h2 : merge d m with
          | none => rw [h2] at hd; cases hd
          | some z =>
            rw [h2, Option.bind_some] at hd
            have hz := (merge_spec h hm).2 z h2
            have := (ih hz).1.1 ⟨d', hd⟩
            refine ⟨?_, firstsFrom_cons.2 ⟨(merge_spec h hm).1.1 ⟨z, h2⟩, this.2⟩⟩
            intro g hg
            rcases List.mem_cons.1 hg with rfl | hg
            · exact legalFile_iff.1 ⟨m, h1⟩
            · exact this.1 g hg
      · rintro ⟨h1, h2⟩
        obtain ⟨h3, h4⟩ := firstsFrom_cons.1 h2
        obtain ⟨m, hm1⟩ := legalFile_iff.2 (h1 f (by simp))
        have hm := (addTables_spec rep_nil).2 m hm1
        rw [List.nil_append] at hm
        obtain ⟨z, hz1⟩ := (merge_spec h hm).1.2 h3
        obtain ⟨d', hd⟩ := (ih ((merge_spec h hm).2 z hz1)).1.2 ⟨fun g hg => h1 g (by simp [hg]), h4⟩
        exact ⟨d', by rw [collect, hm1, Option.bind_some, hz1, Option.bind_some]; exact hd⟩
    · intro d' hd
      rw [collect] at hd
      cases h1 : addTables [] f with
      | none => rw [h1] at hd; cases hd
      | some m =>
        rw [h1, Option.bind_some] at hd
        have hm := (addTables_spec rep_nil).2 m h1
        rw [List.nil_append] at hm
        cases h2 : merge d m with
        | none => rw [h2] at hd; cases hd
        | some z =>
          rw [h2, Option.bind_some] at hd
          have := (ih ((merge_spec h hm).2 z h2)).2 d' hd
          rw [List.append_assoc] at this
          simpa [List.append_assoc] using this

end Ccpp.PB
