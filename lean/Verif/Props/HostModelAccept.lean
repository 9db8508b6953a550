import Verif.Props.HostModel
/-!
# C67: which hosts are accepted
-/
namespace Ccpp.HM

def Ref.isVar : Ref → Bool
  | .var _ => true
  | .ddt _ _ => false

def Ref.lloc (r : Ref) : Str := lower r.leaf.loc

/-- The entries of the two dictionaries can stand together. -/
structure Good (vs cs : List Ref) : Prop where
  stds : ((vs ++ cs).map fun r => r.leaf.std).Nodup
  const : ∀ r ∈ vs ++ cs, r.leaf.std ≠ constName
  vars : (vs.map Ref.lloc).Nodup
  comps : (cs.map Ref.lloc).Nodup

def push (D : Dict) (r : Ref) : Dict := ⟨D.entries ++ [r], r.lloc :: D.locals⟩

def grow1 (d : Core) (r : Ref) : Core := if r.isVar then (push d.1 r, d.2) else (d.1, push d.2 r)

def growAll (d : Core) (rs : List Ref) : Core := rs.foldl grow1 d

structure Inv (d : Core) : Prop where
  vars : ∀ x, x ∈ d.1.locals ↔ x ∈ d.1.entries.map Ref.lloc
  comps : ∀ x, x ∈ d.2.locals ↔ x ∈ d.2.entries.map Ref.lloc

theorem push_inv {D : Dict} (h : ∀ x, x ∈ D.locals ↔ x ∈ D.entries.map Ref.lloc) (r : Ref) :
    ∀ x, x ∈ (push D r).locals ↔ x ∈ (push D r).entries.map Ref.lloc := by
  intro x
  unfold push
  simp only [List.mem_cons, List.map_append, List.mem_append, h x, List.map_cons, List.map_nil, List.not_mem_nil, or_false]
  exact Or.comm

theorem grow1_inv {d : Core} (h : Inv d) (r : Ref) : Inv (grow1 d r) := by
  unfold grow1
  split
  · exact ⟨push_inv h.vars r, h.comps⟩
  · exact ⟨h.vars, push_inv h.comps r⟩

theorem growAll_inv {d : Core} (h : Inv d) (rs : List Ref) : Inv (growAll d rs) := by
  induction rs generalizing d with
  | nil => exact h
  | cons r rs ih => exact ih (grow1_inv h r)

theorem growAll_entries (d : Core) (rs : List Ref) :
    (growAll d rs).1.entries = d.1.entries ++ rs.filter (·.isVar) ∧
    (growAll d rs).2.entries = d.2.entries ++ rs.filter fun r => !r.isVar := by
  induction rs generalizing d with
  | nil => simp [growAll]
  | cons r rs ih =>
    have := ih (grow1 d r)
    unfold growAll at this ⊢
    rw [List.foldl_cons, this.1, this.2]
    unfold grow1 push
    cases h : r.isVar <;> simp [h]

theorem growAll_append (d : Core) (a b : List Ref) : growAll d (a ++ b) = growAll (growAll d a) b := List.foldl_append ..

theorem cfind_isSome (d : Core) (s : Str) : (cfind d s).isSome = true ↔
    s = constName ∨ s ∈ (d.1.entries ++ d.2.entries).map fun r => r.leaf.std := by
  unfold cfind Dict.get
  split
  · rename_i h; simp [h]
  · rename_i h
    rw [List.map_append, List.mem_append, or_iff_right h]
    cases h1 : d.1.entries.find? fun r => r.leaf.std == s with
    | some r =>
      have h2 := List.mem_of_find?_eq_some h1
      have h3 : (r.leaf.std == s) = true := List.find?_some (p := fun r : Ref => r.leaf.std == s) h1
      simp only [Option.isSome_some, true_iff]
      exact Or.inl (List.mem_map.2 ⟨r, h2, beq_iff_eq.1 h3⟩)
    | none =>
      have h4 : s ∉ d.1.entries.map fun r => r.leaf.std := by
        rw [List.find?_eq_none] at h1
        rw [List.mem_map]
        rintro ⟨r, hr, he⟩
        exact h1 r hr (by simp [he])
      rw [or_iff_right h4]
      simp only
      rw [List.find?_isSome, List.mem_map]
      constructor
      · rintro ⟨r, hr, he⟩; exact ⟨r, hr, beq_iff_eq.1 he⟩
      · rintro ⟨r, hr, he⟩; exact ⟨r, hr, by simp [he]⟩

theorem Good.of_append {vs cs a b : List Ref} (h : Good (vs ++ a) (cs ++ b)) : Good vs cs where
  stds := by
    refine List.Nodup.sublist (List.Sublist.map _ ?_) h.stds
    exact List.Sublist.append (List.sublist_append_left vs a) (List.sublist_append_left cs b)
  const := by
    intro r hr
    refine h.const r ?_
    rcases List.mem_append.1 hr with hr | hr
    · simp [hr]
    · simp [hr]
  vars := (by have := h.vars; rw [List.map_append] at this; exact (List.nodup_append.1 this).1)
  comps := (by have := h.comps; rw [List.map_append] at this; exact (List.nodup_append.1 this).1)

theorem nodup_insert_middle {α : Type} {a b : List α} {x : α} : (a ++ [x] ++ b).Nodup ↔ (a ++ b).Nodup ∧ x ∉ a ++ b := by
  have : (a ++ [x] ++ b).Perm (x :: (a ++ b)) := by
    rw [List.append_assoc]
    exact List.perm_middle
  rw [this.nodup_iff, List.nodup_cons]
  exact And.comm

theorem nodup_snoc {α : Type} {a : List α} {x : α} : (a ++ [x]).Nodup ↔ a.Nodup ∧ x ∉ a := by
  have := nodup_insert_middle (a := a) (b := []) (x := x)
  simpa using this

theorem addRef_iff {d : Core} (hi : Inv d) (hg : Good d.1.entries d.2.entries) (r : Ref) (d' : Core) :
    addRef d r = some d' ↔ d' = grow1 d r ∧ Good (grow1 d r).1.entries (grow1 d r).2.entries := by
  unfold addRef
  by_cases hs : (cfind d r.leaf.std).isSome = true
  · rw [if_pos hs]
    constructor
    · intro h; cases h
    · rintro ⟨_, hgood⟩
      exfalso
      rcases (cfind_isSome _ _).1 hs with h | h
      · refine hgood.const r ?_ h
        unfold grow1 push
        split <;> simp
      · have := hgood.stds
        unfold grow1 push at this
        split at this
        · simp only [List.map_append, List.map_cons, List.map_nil] at this
          rw [nodup_insert_middle] at this
          rw [List.map_append] at h
          exact this.2 h
        · simp only [List.map_append, List.map_cons, List.map_nil] at this
          rw [← List.append_assoc, nodup_snoc] at this
          rw [List.map_append] at h
          exact this.2 h
  · rw [if_neg hs]
    have hn : r.leaf.std ≠ constName ∧ r.leaf.std ∉ (d.1.entries ++ d.2.entries).map fun r => r.leaf.std := by
      constructor
      · intro h; exact hs ((cfind_isSome _ _).2 (Or.inl h))
      · intro h; exact hs ((cfind_isSome _ _).2 (Or.inr h))
    cases r with
    | var v =>
      have hgr : grow1 d (.var v) = (push d.1 (.var v), d.2) := rfl
      rw [hgr]
      show Option.map _ (Dict.add d.1 (.var v)) = _ ↔ _
      unfold Dict.add
      have hgi : Good (push d.1 (.var v)).entries d.2.entries ↔ lower v.loc ∉ d.1.locals := by
        rw [hi.vars]
        constructor
        · intro h
          have := h.vars
          unfold push at this
          simp only [List.map_append, List.map_cons, List.map_nil] at this
          exact (nodup_snoc.1 this).2
        · intro h
          refine ⟨?_, ?_, ?_, hg.comps⟩
          · unfold push
            simp only [List.map_append, List.map_cons, List.map_nil]
            rw [nodup_insert_middle, ← List.map_append]
            exact ⟨hg.stds, hn.2⟩
          · intro r hr
            unfold push at hr
            simp only [List.mem_append, List.mem_singleton] at hr
            rcases hr with (hr | rfl) | hr
            · exact hg.const r (by simp [hr])
            · exact hn.1
            · exact hg.const r (by simp [hr])
          · unfold push
            simp only [List.map_append, List.map_cons, List.map_nil]
            exact nodup_snoc.2 ⟨hg.vars, h⟩
      rw [hgi]
      show (Option.map _ (if lower v.loc ∈ d.1.locals then none else _)) = _ ↔ _
      by_cases hl : lower v.loc ∈ d.1.locals
      · rw [if_pos hl]; simp [hl]
      · rw [if_neg hl]
        simp only [hl, not_false_eq_true, and_true]
        constructor
        · intro h; injection h with h; exact h.symm
        · rintro rfl; rfl
    | ddt o f =>
      have hgr : grow1 d (.ddt o f) = (d.1, push d.2 (.ddt o f)) := rfl
      rw [hgr]
      show Option.map _ (Dict.add d.2 (.ddt o f)) = _ ↔ _
      unfold Dict.add
      have hgi : Good d.1.entries (push d.2 (.ddt o f)).entries ↔ lower f.leaf.loc ∉ d.2.locals := by
        rw [hi.comps]
        constructor
        · intro h
          have := h.comps
          unfold push at this
          simp only [List.map_append, List.map_cons, List.map_nil] at this
          exact (nodup_snoc.1 this).2
        · intro h
          refine ⟨?_, ?_, hg.vars, ?_⟩
          · unfold push
            rw [← List.append_assoc, List.map_append, List.map_cons, List.map_nil]
            exact nodup_snoc.2 ⟨hg.stds, hn.2⟩
          · intro r hr
            unfold push at hr
            simp only [List.mem_append, List.mem_singleton] at hr
            rcases hr with hr | hr | rfl
            · exact hg.const r (by simp [hr])
            · exact hg.const r (by simp [hr])
            · exact hn.1
          · unfold push
            simp only [List.map_append, List.map_cons, List.map_nil]
            exact nodup_snoc.2 ⟨hg.comps, h⟩
      rw [hgi]
      show (Option.map _ (if lower f.leaf.loc ∈ d.2.locals then none else _)) = _ ↔ _
      by_cases hl : lower f.leaf.loc ∈ d.2.locals
      · rw [if_pos hl]; simp [hl]
      · rw [if_neg hl]
        simp only [hl, not_false_eq_true, and_true]
        constructor
        · intro h; injection h with h; exact h.symm
        · rintro rfl; rfl

theorem Good.of_growAll {d : Core} {rs : List Ref} (h : Good (growAll d rs).1.entries (growAll d rs).2.entries) :
    Good d.1.entries d.2.entries := by
  rw [(growAll_entries d rs).1, (growAll_entries d rs).2] at h
  exact h.of_append

theorem addRefs_iff {d : Core} (hi : Inv d) (hg : Good d.1.entries d.2.entries) (rs : List Ref) (d' : Core) :
    addRefs d rs = some d' ↔ d' = growAll d rs ∧ Good (growAll d rs).1.entries (growAll d rs).2.entries := by
  induction rs generalizing d with
  | nil =>
    rw [addRefs]
    constructor
    · intro h; injection h with h; exact ⟨h.symm, hg⟩
    · rintro ⟨rfl, _⟩; rfl
  | cons r rs ih =>
    rw [addRefs, Option.bind_eq_some_iff]
    show _ ↔ d' = growAll (grow1 d r) rs ∧ Good (growAll (grow1 d r) rs).1.entries (growAll (grow1 d r) rs).2.entries
    constructor
    · rintro ⟨e, h1, h2⟩
      obtain ⟨rfl, hge⟩ := (addRef_iff hi hg r e).1 h1
      exact (ih (grow1_inv hi r) hge).1 h2
    · intro h
      have hge : Good (grow1 d r).1.entries (grow1 d r).2.entries := h.2.of_growAll
      exact ⟨_, (addRef_iff hi hg r _).2 ⟨rfl, hge⟩, (ih (grow1_inv hi r) hge).2 h⟩

/-! ## Loop variables -/

theorem addLoops_iff (D : Dict) (hl : ∀ x, x ∈ D.locals ↔ x ∈ D.entries.map Ref.lloc)
    (h1 : (D.entries.map fun r => r.leaf.std).Nodup) (h2 : (D.entries.map Ref.lloc).Nodup) (rs : List Ref) :
    (addLoops D rs).isSome = true ↔ ((D.entries ++ rs).map fun r => r.leaf.std).Nodup ∧ ((D.entries ++ rs).map Ref.lloc).Nodup := by
  induction rs generalizing D with
  | nil => rw [addLoops, List.append_nil]; simp [h1, h2]
  | cons r rs ih =>
    rw [addLoops]
    have e1 : (D.get r.leaf.std).isSome = true ↔ r.leaf.std ∈ D.entries.map fun r => r.leaf.std := by
      unfold Dict.get
      rw [List.find?_isSome, List.mem_map]
      constructor
      · rintro ⟨x, hx, he⟩; exact ⟨x, hx, beq_iff_eq.1 he⟩
      · rintro ⟨x, hx, he⟩; exact ⟨x, hx, by simp [he]⟩
    have e2 : ∀ {β : Type} (g : Ref → β), ((D.entries ++ r :: rs).map g).Nodup → g r ∉ D.entries.map g := by
      intro β g h
      rw [List.append_cons] at h
      simp only [List.map_append, List.map_cons, List.map_nil] at h
      rw [List.nodup_append] at h
      exact (nodup_snoc.1 h.1).2
    by_cases hc : (D.get r.leaf.std).isSome = true
    · rw [if_pos hc]
      constructor
      · intro h; cases h
      · rintro ⟨h, _⟩
        exact absurd (e1.1 hc) (e2 (fun r => r.leaf.std) h)
    · rw [if_neg hc]
      unfold Dict.add
      by_cases hd : lower r.leaf.loc ∈ D.locals
      · rw [if_pos hd]
        constructor
        · intro h; cases h
        · rintro ⟨_, h⟩
          exact absurd ((hl _).1 hd) (e2 Ref.lloc h)
      · rw [if_neg hd]
        show (addLoops (push D r) rs).isSome = true ↔ _
        rw [ih (push D r) (push_inv hl r)]
        · show ((D.entries ++ [r] ++ rs).map _).Nodup ∧ ((D.entries ++ [r] ++ rs).map _).Nodup ↔ _
          rw [List.append_cons D.entries r rs]
        · show ((D.entries ++ [r]).map _).Nodup
          rw [List.map_append, List.map_cons, List.map_nil]
          exact nodup_snoc.2 ⟨h1, fun h => hc (e1.2 h)⟩
        · show ((D.entries ++ [r]).map _).Nodup
          rw [List.map_append, List.map_cons, List.map_nil]
          exact nodup_snoc.2 ⟨h2, fun h => hd ((hl _).2 h)⟩

end Ccpp.HM
