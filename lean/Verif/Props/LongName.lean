import Verif.Spec.LongName
/-!
# C100: the long name of a standard name
-/
namespace Ccpp.LongName

theorem subst_some : ∀ {s s' : Str}, substLast s = some s' → ∃ a d e b, s = a ++ d :: 'p' :: e :: b ∧
    s' = a ++ d :: '.' :: e :: b ∧ d.isDigit = true ∧ e.isDigit = true
  | [], s', h => by cases h
  | c :: r, s', h => by
    unfold substLast at h
    cases hr : substLast r with
    | some r' =>
      rw [hr] at h
      cases h
      obtain ⟨a, d, e, b, rfl, rfl, h1, h2⟩ := subst_some hr
      exact ⟨c :: a, d, e, b, rfl, rfl, h1, h2⟩
    | none =>
      rw [hr] at h
      simp only at h
      split at h
      · next e t =>
        split at h
        · next hd => cases h; exact ⟨[], c, e, t, rfl, rfl, hd.1, hd.2⟩
        · cases h
      · cases h

theorem subst_none : ∀ {s : Str}, substLast s = none → ∀ i, ¬ PointAt s (i + 1)
  | [], _, i, h => by obtain ⟨_, h, _⟩ := h; simp at h
  | c :: r, h, i, hp => by
    unfold substLast at h
    cases hr : substLast r with
    | some r' => rw [hr] at h; cases h
    | none =>
      rw [hr] at h
      cases i with
      | succ i =>
        obtain ⟨_, h1, ⟨d, h2, h3⟩, ⟨e, h4, h5⟩⟩ := hp
        exact subst_none hr i ⟨by omega, by simpa using h1, ⟨d, by simpa using h2, h3⟩, ⟨e, by simpa using h4, h5⟩⟩
      | zero =>
        obtain ⟨_, h1, ⟨d, h2, h3⟩, ⟨e, h4, h5⟩⟩ := hp
        simp at h1 h2 h4
        subst h2
        match r, h1, h4, h with
        | x :: y :: t, h1, h4, h =>
          simp at h1 h4
          subst h1; subst h4
          simp [h3, h5] at h

/-- The texts that the loop passes through. -/
def Inv (u t : Str) : Prop := t.length = u.length ∧ ∀ i, t[i]? = u[i]? ∨ (t[i]? = some '.' ∧ PointAt u i)

theorem inv_digit {u t : Str} (h : Inv u t) (i : Nat) : DigitAt t i ↔ DigitAt u i := by
  unfold DigitAt
  rcases h.2 i with e | ⟨e, _, h1, _⟩
  · rw [e]
  · rw [e, h1]
    constructor <;> (rintro ⟨c, hc, hd⟩; cases hc; exact absurd hd (by decide))

theorem inv_step {u t t' : Str} (h : Inv u t) (hs : substLast t = some t') : Inv u t' := by
  obtain ⟨a, d, e, b, rfl, rfl, h1, h2⟩ := subst_some hs
  refine ⟨by have := h.1; simp at this ⊢; exact this, fun i => ?_⟩
  by_cases hi : i = a.length + 1
  · subst hi
    right
    refine ⟨by simp, by omega, ?_, ?_, ?_⟩
    · rcases h.2 (a.length + 1) with e1 | ⟨e1, _⟩
      · rw [← e1]; simp
      · simp at e1
    · rw [← inv_digit h]; exact ⟨d, by simp, h1⟩
    · rw [← inv_digit h]; exact ⟨e, by rw [List.getElem?_append_right (by omega)]; simp [show a.length + 1 + 1 - a.length = 2 by omega], h2⟩
  · have : (a ++ d :: '.' :: e :: b)[i]? = (a ++ d :: 'p' :: e :: b)[i]? := by
      by_cases hlt : i < a.length
      · rw [List.getElem?_append_left hlt, List.getElem?_append_left hlt]
      · rw [List.getElem?_append_right (by omega), List.getElem?_append_right (by omega)]
        rcases hk : i - a.length with _ | _ | k
        · rfl
        · omega
        · rfl
    rw [this]
    exact h.2 i

theorem inv_all (u : Str) : ∀ t, Inv u t → Inv u (substAll t) ∧ substLast (substAll t) = none := by
  intro t
  induction t using substAll.induct with
  | case1 t t' hs ih =>
    intro h
    rw [substAll]
    split
    · next s' e => rw [hs] at e; cases e; exact ih (inv_step h hs)
    · next e => rw [hs] at e; cases e
  | case2 t hs =>
    intro h
    rw [substAll]
    split
    · next s' e => rw [hs] at e; cases e
    · exact ⟨h, hs⟩

theorem upper_digit (c : Char) : c.toUpper.isDigit = c.isDigit := by
  unfold Char.toUpper
  split
  · next h =>
    have h1 : c.isDigit = false := by
      unfold Char.isDigit
      simp only [Bool.and_eq_false_iff, decide_eq_false_iff_not]
      right
      intro h2
      have := UInt32.le_trans h.1 h2
      exact absurd this (by decide)
    rw [h1]
    unfold Char.isDigit
    simp only [Bool.and_eq_false_iff, decide_eq_false_iff_not]
    right
    intro h2
    have h3 := h.1
    have h4 := h.2
    simp only [UInt32.le_iff_toNat_le] at h2 h3 h4
    simp at h2 h3 h4
    omega
  · rfl

/-- **C100**. Every standard name has a long name: of the same length; the first character is a capital, underscores are
blanks, every p between digits is a decimal point, and all else is as in the name. -/
theorem C100_long_name (s : Str) : ∃ l, standardNameToLongName (some s) = some l ∧ IsLongName s l := by
  refine ⟨longName s, rfl, ?_⟩
  cases s with
  | nil =>
    have : longName [] = [] := by
      show substAll [] = []
      rw [substAll]; split
      · next e => cases e
      · rfl
    rw [this]
    exact ⟨rfl, by simp, by simp, by rintro i ⟨_, h, _⟩; simp at h, by simp⟩
  | cons c r =>
    let g : Char → Char := fun x => if x = '_' then ' ' else x
    let u : Str := c.toUpper :: r.map g
    have hu : ∀ i, u[i + 1]? = (r[i]?).map g := by intro i; simp [u]
    have hgd : ∀ x, (g x).isDigit = x.isDigit := by
      intro x; simp only [g]; split
      · next h => subst h; rfl
      · rfl
    have hgp : ∀ x, g x = 'p' ↔ x = 'p' := by
      intro x; simp only [g]; split
      · next h => subst h; decide
      · rfl
    have hdig : ∀ i, DigitAt u i ↔ DigitAt (c :: r) i := by
      intro i
      cases i with
      | zero => simp [DigitAt, u, upper_digit]
      | succ i =>
        unfold DigitAt
        rw [hu, List.getElem?_cons_succ]
        cases r[i]? with
        | none => simp
        | some x => simp [hgd]
    have hpt : ∀ i, PointAt u i ↔ PointAt (c :: r) i := by
      intro i
      unfold PointAt
      rw [hdig, hdig]
      cases i with
      | zero => simp
      | succ i => rw [hu]; simp [hgp]
    obtain ⟨⟨hlen, hinv⟩, hnone⟩ := inv_all u u ⟨rfl, fun i => Or.inl rfl⟩
    show IsLongName (c :: r) (substAll u)
    have hfix : ∀ i, PointAt u i → (substAll u)[i]? = some '.' := by
      intro i hp
      rcases hinv i with e | ⟨e, _⟩
      · obtain ⟨h0, h1, h2, h3⟩ := hp
        obtain ⟨j, rfl⟩ : ∃ j, i = j + 1 := ⟨i - 1, by omega⟩
        refine absurd ⟨by omega, by rw [e]; exact h1, ?_, ?_⟩ (subst_none hnone j)
        · rw [inv_digit ⟨hlen, hinv⟩]; exact h2
        · rw [inv_digit ⟨hlen, hinv⟩]; exact h3
      · exact e
    have hkeep : ∀ i, ¬ PointAt u i → (substAll u)[i]? = u[i]? := by
      intro i hp
      rcases hinv i with e | ⟨_, h⟩
      · exact e
      · exact absurd h hp
    refine ⟨by rw [hlen]; simp [u], ?_, ?_, ?_, ?_⟩
    · intro x hx
      cases hx
      rw [hkeep 0 (by rintro ⟨h, _⟩; omega)]; rfl
    · intro i h0 hi
      obtain ⟨j, rfl⟩ : ∃ j, i = j + 1 := ⟨i - 1, by omega⟩
      rw [hkeep _ (by rw [hpt]; rintro ⟨_, h, _⟩; rw [hi] at h; exact absurd (Option.some.inj h) (by decide)), hu]
      rw [List.getElem?_cons_succ] at hi
      rw [hi]; rfl
    · intro i h; exact hfix i ((hpt i).2 h)
    · intro i x h0 hi hne hp
      obtain ⟨j, rfl⟩ : ∃ j, i = j + 1 := ⟨i - 1, by omega⟩
      rw [hkeep _ (by rw [hpt]; exact hp), hu]
      rw [List.getElem?_cons_succ] at hi
      rw [hi]
      simp [g, hne]

/-- Without a standard name there is an error. -/
theorem C100_missing : standardNameToLongName none = none := rfl

/-- Overlapping places are all replaced. -/
theorem C100_example : standardNameToLongName (some "pdepth_layers_from_0p55mu_to_1p2p3p".toList) =
    some "Pdepth layers from 0.55mu to 1.2.3p".toList := by
  decide +kernel

end Ccpp.LongName
