import Verif.Model.ParseContext
/-!
# C25: parse regions are balanced
-/
namespace Ccpp.Ctx

/-- A leave with name `n'` matches a region named `n`: the name, if given, is the region's. -/
def NameOk (n' n : Option String) : Prop := n' = none ∨ n' = n

/-- Balanced call sequences below the open region types `open_`: every enter has its leave, of the
same type and with a matching name; a type is entered again only where nesting is allowed. -/
inductive Balanced : List String → List Op → Prop
  | nil {op} : Balanced op []
  | block {op t n n' k w w'} : (k = true ∨ t ∉ op) → Balanced (t :: op) w → NameOk n' n →
      Balanced op w' → Balanced op (.enter t n k :: w ++ .leave t n' :: w')

theorem leave_true {s s' : Stack} {t : String} {n : Option String} :
    leave s t n = (true, s') ↔ ∃ m, s = ⟨t, m⟩ :: s' ∧ NameOk n m := by
  unfold leave NameOk
  cases s with
  | nil => simp
  | cons r s =>
    obtain ⟨rt, rn⟩ := r
    by_cases h : rt = t
    · subst h
      cases n <;> cases rn <;> simp [eq_comm, and_comm]
    · simp [h]

theorem enter_true {s s' : Stack} {t : String} {n : Option String} {k : Bool} :
    enter s t n k = (true, s') ↔ (k = true ∨ t ∉ typeList s) ∧ s' = ⟨t, n⟩ :: s := by
  unfold enter
  by_cases h : t ∈ typeList s <;> cases k <;> simp [h, eq_comm]

/-- **C25 (enter).**  Entering succeeds unless the type is open and nesting is not allowed, pushes the
region, and otherwise changes nothing. -/
theorem C25_enter (s : Stack) (t : String) (n : Option String) (k : Bool) :
    ((k = true ∨ ∀ r ∈ s, r.type ≠ t) → enter s t n k = (true, ⟨t, n⟩ :: s)) ∧
    (k = false → (∃ r ∈ s, r.type = t) → enter s t n k = (false, s)) := by
  refine ⟨fun h => enter_true.2 ⟨?_, rfl⟩, ?_⟩
  · rcases h with h | h
    · exact Or.inl h
    · right
      intro hm
      obtain ⟨r, hr, he⟩ := List.mem_map.1 hm
      exact h r hr he
  · rintro rfl ⟨r, hr, he⟩
    have : t ∈ typeList s := List.mem_map.2 ⟨r, hr, he⟩
    simp [enter, this]

/-- **C25 (leave).**  Leaving succeeds exactly when the innermost open region has the given type, and
the given name if a name is given; it then closes that region. -/
theorem C25_leave (s s' : Stack) (t : String) (n : Option String) :
    leave s t n = (true, s') ↔
      ∃ r, s = r :: s' ∧ r.type = t ∧ (∀ a, n = some a → r.name = some a) := by
  rw [leave_true]
  constructor
  · rintro ⟨m, rfl, h⟩
    refine ⟨_, rfl, rfl, ?_⟩
    rintro a rfl
    rcases h with h | h
    · cases h
    · exact h.symm
  · rintro ⟨⟨rt, rn⟩, rfl, rfl, h⟩
    refine ⟨rn, rfl, ?_⟩
    cases n with
    | none => exact Or.inl rfl
    | some a => exact Or.inr (h a rfl).symm

/-- **C25 (in_region).**  in_region asks about the innermost open region, name included. -/
theorem C25_in_region (s : Stack) (t : String) (n : Option String) :
    inRegion s t n = true ↔ ∃ s', s = ⟨t, n⟩ :: s' := by
  cases s with
  | nil => simp [inRegion, currRegion]
  | cons r s => simp [inRegion, currRegion]

theorem run_append (s : Stack) (a b : List Op) :
    run s (a ++ b) = (run s a).bind (fun s' => run s' b) := by
  induction a generalizing s with
  | nil => rfl
  | cons o a ih =>
    cases o with
    | enter t n k =>
      simp only [List.cons_append, run]
      split
      · exact ih _
      · rfl
    | leave t n =>
      simp only [List.cons_append, run]
      split
      · exact ih _
      · rfl

theorem balanced_run {op : List String} {w : List Op} (h : Balanced op w) :
    ∀ s, typeList s = op → run s w = some s := by
  induction h with
  | nil => intro s _; rfl
  | @block op t n n' k w w' hk _ hn _ ih1 ih2 =>
    intro s hs
    have h1 : enter s t n k = (true, ⟨t, n⟩ :: s) := enter_true.2 ⟨by rw [hs]; exact hk, rfl⟩
    simp only [List.cons_append, run, h1]
    rw [run_append, ih1 (⟨t, n⟩ :: s) (by simp [typeList, ← hs])]
    have h2 : leave (⟨t, n⟩ :: s) t n' = (true, s) := leave_true.2 ⟨n, rfl, hn⟩
    simp only [Option.bind_some, run, h2]
    exact ih2 s hs

/-- Reading a run from an opened region: either the rest is balanced, or it closes the region. -/
theorem run_split : ∀ (len : Nat) (w : List Op), w.length ≤ len → ∀ (s f : Stack),
    run s w = some f → 
    Balanced (typeList s) w ∨
    (∃ w1 t n k w2, w = w1 ++ .enter t n k :: w2 ∧ Balanced (typeList s) w1 ∧
      (k = true ∨ t ∉ typeList s) ∧ run (⟨t, n⟩ :: s) w2 = some f ∧
      ¬ ∃ v1 n' v2, w2 = v1 ++ .leave t n' :: v2 ∧ Balanced (t :: typeList s) v1) ∨
    (∃ w1 r s' n' w2, s = r :: s' ∧ w = w1 ++ .leave r.type n' :: w2 ∧ Balanced (typeList s) w1 ∧
      NameOk n' r.name ∧ run s' w2 = some f) := by
  intro len
  induction len with
  | zero =>
    intro w hl s f _
    have : w = [] := List.length_eq_zero_iff.1 (Nat.le_zero.1 hl)
    subst this; exact Or.inl .nil
  | succ len IH =>
    intro w hl s f h
    cases w with
    | nil => exact Or.inl .nil
    | cons o w =>
      simp only [List.length_cons] at hl
      cases o with
      | leave t n =>
        right; right
        simp only [run] at h
        split at h
        · next s' hs =>
          obtain ⟨m, rfl, hn⟩ := leave_true.1 hs
          exact ⟨[], ⟨t, m⟩, s', n, w, rfl, rfl, .nil, hn, h⟩
        · cases h
      | enter t n k =>
        simp only [run] at h
        split at h
        · next s1 hs =>
          obtain ⟨hk, rfl⟩ := enter_true.1 hs
          by_cases hc : ∃ v1 n' v2, w = v1 ++ .leave t n' :: v2 ∧ Balanced (t :: typeList s) v1
          · obtain ⟨v1, n', v2, rfl, hb⟩ := hc
            rw [run_append, balanced_run hb (⟨t, n⟩ :: s) rfl] at h
            simp only [Option.bind_some, run] at h
            split at h
            · next s2 hs2 =>
              obtain ⟨m, he, hn⟩ := leave_true.1 hs2
              cases he
              have hl2 : v2.length ≤ len := by
                simp only [List.length_append, List.length_cons] at hl; omega
              have hblk : ∀ x, Balanced (typeList s) x →
                  Balanced (typeList s) (.enter t n k :: v1 ++ .leave t n' :: x) :=
                fun x hx => .block hk hb hn hx
              rcases IH v2 hl2 s f h with h1 | ⟨w1, t', n'', k', w2, rfl, b1, b2, b3, b4⟩ |
                ⟨w1, r, s', n'', w2, rfl, rfl, b1, b2, b3⟩
              · exact Or.inl (hblk v2 h1)
              · refine Or.inr (Or.inl ⟨.enter t n k :: v1 ++ .leave t n' :: w1, t', n'', k', w2, ?_,
                  hblk w1 b1, b2, b3, b4⟩)
                simp
              · refine Or.inr (Or.inr ⟨.enter t n k :: v1 ++ .leave t n' :: w1, r, s', n'', w2, rfl,
                  ?_, hblk w1 b1, b2, b3⟩)
                simp
            · cases h
          · exact Or.inr (Or.inl ⟨[], t, n, k, w, rfl, .nil, hk, h, hc⟩)
        · cases h

/-- If a region is opened and the sequence ends below it, the region is closed by a balanced part. -/
theorem run_closes : ∀ (len : Nat) (w : List Op), w.length ≤ len → ∀ (r : Region) (s f : Stack),
    run (r :: s) w = some f → f.length ≤ s.length →
    ∃ v1 n' v2, w = v1 ++ .leave r.type n' :: v2 ∧ Balanced (r.type :: typeList s) v1 := by
  intro len
  induction len with
  | zero =>
    intro w hl r s f h hf
    have : w = [] := List.length_eq_zero_iff.1 (Nat.le_zero.1 hl)
    subst this
    simp only [run, Option.some.injEq] at h
    subst h; simp at hf; omega
  | succ len IH =>
    intro w hl r s f h hf
    rcases run_split w.length w (Nat.le_refl _) (r :: s) f h with h1 |
      ⟨w1, t, n, k, w2, rfl, b1, b2, b3, b4⟩ | ⟨w1, r', s', n', w2, he, rfl, b1, b2, b3⟩
    · rw [balanced_run h1 (r :: s) rfl] at h
      simp only [Option.some.injEq] at h
      subst h; simp at hf; omega
    · exfalso
      apply b4
      exact IH w2 (by simp only [List.length_append, List.length_cons] at hl; omega) ⟨t, n⟩ (r :: s)
        f b3 (by simp; omega)
    · cases he
      exact ⟨w1, n', w2, rfl, b1⟩

/-- **C25.**  A sequence of enter/leave calls starting from a context with no open region raises no
error and closes every region it opens exactly when it is balanced. -/
theorem C25_balanced (w : List Op) : run [] w = some [] ↔ Balanced [] w := by
  constructor
  · intro h
    rcases run_split w.length w (Nat.le_refl _) [] [] h with h1 |
      ⟨w1, t, n, k, w2, rfl, b1, b2, b3, b4⟩ | ⟨w1, r', s', n', w2, he, _⟩
    · exact h1
    · exfalso
      exact b4 (run_closes w2.length w2 (Nat.le_refl _) ⟨t, n⟩ [] [] b3 (by simp))
    · cases he
  · intro h; exact balanced_run h [] rfl

/-- A failing leave_region is not without effect: the innermost region is closed anyway. -/
theorem C25_failed_leave_violated (r : Region) (s : Stack) (t : String) (n : Option String)
    (h : r.type ≠ t) : leave (r :: s) t n = (false, s) := by
  simp [leave, h]

/-- Asking in_region without a name is not "in a region of this type": it is false for a named one. -/
theorem C25_in_region_unnamed (s : Stack) (t a : String) :
    inRegion (⟨t, some a⟩ :: s) t none = false := by
  simp [inRegion, currRegion]

/-- Non-vacuity: module with a type and a subroutine, left with and without names. -/
example : run [] [.enter "MODULE" (some "m") false, .enter "DDT" none false, .leave "DDT" none,
    .enter "SUBROUTINE" (some "s") true, .leave "SUBROUTINE" none, .leave "MODULE" (some "m")] =
    some [] := by decide

example : run [] [.enter "MODULE" (some "m") false, .enter "MODULE" (some "n") false] = none := by
  decide

end Ccpp.Ctx
