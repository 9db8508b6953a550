import Verif.Model.Regex
/-!
# The language of a regular expression
-/
namespace Ccpp.Rx

/-- The language of a regular expression. -/
inductive L : Re → List Char → Prop
  | eps : L .eps []
  | chr {p c} : p c = true → L (.chr p) [c]
  | seq {a b s t} : L a s → L b t → L (.seq a b) (s ++ t)
  | altL {a b s} : L a s → L (.alt a b) s
  | altR {a b s} : L b s → L (.alt a b) s
  | starNil {a} : L (.star a) []
  | starCons {a s t} : L a s → L (.star a) t → L (.star a) (s ++ t)

theorem L_none {s} : ¬ L .none s := by intro h; cases h

theorem L_eps {s} : L .eps s ↔ s = [] := ⟨fun h => by cases h; rfl, fun h => h ▸ .eps⟩

theorem L_chr {p s} : L (.chr p) s ↔ ∃ c, s = [c] ∧ p c = true :=
  ⟨fun h => by cases h with | chr h => exact ⟨_, rfl, h⟩, fun ⟨_, e, h⟩ => e ▸ .chr h⟩

theorem L_seq {a b s} : L (.seq a b) s ↔ ∃ x y, s = x ++ y ∧ L a x ∧ L b y :=
  ⟨fun h => by cases h with | seq h1 h2 => exact ⟨_, _, rfl, h1, h2⟩, fun ⟨_, _, e, h1, h2⟩ => e ▸ .seq h1 h2⟩

theorem L_alt {a b s} : L (.alt a b) s ↔ L a s ∨ L b s :=
  ⟨fun h => by cases h with
    | altL h => exact .inl h
    | altR h => exact .inr h, fun h => h.elim .altL .altR⟩

theorem nullable_iff (r : Re) : r.nullable = true ↔ L r [] := by
  induction r with
  | none => simp [Re.nullable, L_none]
  | eps => simp [Re.nullable, L_eps]
  | chr p => simp [Re.nullable, L_chr]
  | seq a b iha ihb =>
    simp only [Re.nullable, Bool.and_eq_true, iha, ihb, L_seq]
    constructor
    · rintro ⟨h1, h2⟩; exact ⟨[], [], rfl, h1, h2⟩
    · rintro ⟨x, y, e, h1, h2⟩
      obtain ⟨rfl, rfl⟩ := List.append_eq_nil_iff.1 e.symm
      exact ⟨h1, h2⟩
  | alt a b iha ihb => simp [Re.nullable, iha, ihb, L_alt]
  | star a _ => simp [Re.nullable, L.starNil]

/-- A non-empty text of a repetition begins with a non-empty text of the repeated expression. -/
theorem star_cons {a : Re} {c : Char} {s : List Char} (h : L (.star a) (c :: s)) :
    ∃ x y, s = x ++ y ∧ L a (c :: x) ∧ L (.star a) y := by
  generalize hr : Re.star a = r at h
  generalize ht : c :: s = t at h
  induction h with
  | eps => cases hr
  | chr => cases hr
  | seq => cases hr
  | altL => cases hr
  | altR => cases hr
  | starNil => cases ht
  | @starCons a' x y h1 h2 _ ih =>
    cases hr
    cases x with
    | nil => exact ih rfl ht
    | cons d x =>
      obtain ⟨rfl, rfl⟩ := List.cons.inj ht
      exact ⟨x, y, rfl, h1, h2⟩

theorem deriv_iff (r : Re) (c : Char) : ∀ s, L (r.deriv c) s ↔ L r (c :: s) := by
  induction r with
  | none => intro s; simp [Re.deriv, L_none]
  | eps => intro s; simp [Re.deriv, L_none, L_eps]
  | chr p =>
    intro s
    rw [Re.deriv, L_chr]
    split
    · next h => rw [L_eps]; constructor
                · rintro rfl; exact ⟨c, rfl, h⟩
                · rintro ⟨d, e, -⟩; exact (List.cons.inj e).2
    · next h => constructor
                · exact fun h => absurd h L_none
                · rintro ⟨d, e, hd⟩
                  rw [(List.cons.inj e).1] at h
                  exact absurd hd h
  | seq a b iha ihb =>
    intro s
    have h1 : L (.seq (a.deriv c) b) s ↔ ∃ x y, s = x ++ y ∧ L a (c :: x) ∧ L b y := by
      rw [L_seq]; simp only [iha]
    have h2 : L (.seq a b) (c :: s) ↔
        (∃ x y, s = x ++ y ∧ L a (c :: x) ∧ L b y) ∨ (L a [] ∧ L b (c :: s)) := by
      rw [L_seq]
      constructor
      · rintro ⟨x, y, e, hx, hy⟩
        cases x with
        | nil => exact .inr ⟨hx, by rw [e]; exact hy⟩
        | cons d x =>
          obtain ⟨rfl, rfl⟩ := List.cons.inj e
          exact .inl ⟨x, y, rfl, hx, hy⟩
      · rintro (⟨x, y, rfl, hx, hy⟩ | ⟨hx, hy⟩)
        · exact ⟨c :: x, y, rfl, hx, hy⟩
        · exact ⟨[], _, rfl, hx, hy⟩
    rw [h2, Re.deriv]
    split
    · next hn => rw [L_alt, h1, ihb, ← nullable_iff]; simp [hn]
    · next hn => rw [h1, ← nullable_iff]; simp [hn]
  | alt a b iha ihb => intro s; rw [Re.deriv, L_alt, L_alt, iha, ihb]
  | star a ih =>
    intro s
    rw [Re.deriv, L_seq]
    constructor
    · rintro ⟨x, y, rfl, hx, hy⟩
      exact .starCons (s := c :: x) ((ih x).1 hx) hy
    · intro h
      obtain ⟨x, y, e, hx, hy⟩ := star_cons h
      exact ⟨x, y, e, (ih x).2 hx, hy⟩

/-- The matcher decides the language. -/
theorem full_iff (r : Re) (s : List Char) : r.full s = true ↔ L r s := by
  induction s generalizing r with
  | nil => exact nullable_iff r
  | cons c s ih => rw [Re.full, ih, deriv_iff]

theorem dollar_iff (r : Re) (s : List Char) : r.dollar s = true ↔ L r s ∨ ∃ t, s = t ++ ['\n'] ∧ L r t := by
  unfold Re.dollar
  rw [Bool.or_eq_true, Bool.and_eq_true, full_iff, full_iff, beq_iff_eq]
  constructor
  · rintro (h | ⟨h1, h2⟩)
    · exact .inl h
    · refine .inr ⟨s.dropLast, ?_, h2⟩
      have hne : s ≠ [] := by rintro rfl; cases h1
      rw [List.getLast?_eq_some_getLast hne] at h1
      have := List.dropLast_concat_getLast hne
      rw [Option.some.inj h1] at this
      exact this.symm
  · rintro (h | ⟨t, rfl, h⟩)
    · exact .inl h
    · exact .inr ⟨by simp, by simpa using h⟩

theorem L_lit {c s} : L (.lit c) s ↔ s = [c] := by
  unfold Re.lit
  rw [L_chr]
  constructor
  · rintro ⟨d, e, h⟩; rw [beq_iff_eq] at h; rw [e, h]
  · intro e; exact ⟨c, e, by simp⟩

theorem L_text {t s} : L (.text t) s ↔ s = t := by
  induction t generalizing s with
  | nil => exact L_eps
  | cons c t ih =>
    rw [Re.text, L_seq]
    simp only [L_lit, ih]
    constructor
    · rintro ⟨x, y, e, rfl, rfl⟩; exact e
    · intro e; exact ⟨[c], t, e, rfl, rfl⟩

theorem L_star_chr {p s} : L (.star (.chr p)) s ↔ ∀ c ∈ s, p c = true := by
  induction s with
  | nil => simp [L.starNil]
  | cons c s ih =>
    constructor
    · intro h
      obtain ⟨x, y, e, hx, hy⟩ := star_cons h
      obtain ⟨d, e2, hd⟩ := L_chr.1 hx
      obtain ⟨rfl, rfl⟩ := List.cons.inj e2
      simp only [List.nil_append] at e
      subst e
      exact List.forall_mem_cons.2 ⟨hd, ih.1 hy⟩
    · intro h
      rw [List.forall_mem_cons] at h
      exact .starCons (s := [c]) (.chr h.1) (ih.2 h.2)

theorem L_plus_chr {p s} : L (.plus (.chr p)) s ↔ s ≠ [] ∧ ∀ c ∈ s, p c = true := by
  unfold Re.plus
  rw [L_seq]
  constructor
  · rintro ⟨x, y, rfl, hx, hy⟩
    obtain ⟨c, rfl, hc⟩ := L_chr.1 hx
    exact ⟨by simp, List.forall_mem_cons.2 ⟨hc, L_star_chr.1 hy⟩⟩
  · rintro ⟨hne, h⟩
    cases s with
    | nil => exact absurd rfl hne
    | cons c s =>
      rw [List.forall_mem_cons] at h
      exact ⟨[c], s, rfl, .chr h.1, L_star_chr.2 h.2⟩

theorem L_opt {r s} : L (.opt r) s ↔ s = [] ∨ L r s := by
  unfold Re.opt; rw [L_alt, L_eps]

/-- A repetition is a sequence of texts. -/
theorem L_star {r s} : L (.star r) s ↔ ∃ l : List (List Char), s = l.flatten ∧ ∀ x ∈ l, L r x := by
  constructor
  · intro h
    generalize hr : Re.star r = q at h
    induction h with
    | eps => cases hr
    | chr => cases hr
    | seq => cases hr
    | altL => cases hr
    | altR => cases hr
    | starNil => exact ⟨[], rfl, by simp⟩
    | @starCons a' x y h1 h2 _ ih =>
      cases hr
      obtain ⟨l, rfl, hl⟩ := ih rfl
      exact ⟨x :: l, rfl, List.forall_mem_cons.2 ⟨h1, hl⟩⟩
  · rintro ⟨l, rfl, hl⟩
    induction l with
    | nil => exact .starNil
    | cons x l ih =>
      rw [List.forall_mem_cons] at hl
      exact .starCons hl.1 (ih hl.2)

/-- At most n repetitions. -/
theorem L_upTo {r n s} : L (.upTo r n) s ↔ ∃ l : List (List Char), l.length ≤ n ∧ s = l.flatten ∧ ∀ x ∈ l, L r x := by
  induction n generalizing s with
  | zero =>
    rw [Re.upTo, L_eps]
    constructor
    · rintro rfl; exact ⟨[], by simp, rfl, by simp⟩
    · rintro ⟨l, h, rfl, -⟩
      have : l = [] := List.length_eq_zero_iff.1 (by omega)
      subst this; rfl
  | succ n ih =>
    rw [Re.upTo, L_alt, L_eps, L_seq]
    constructor
    · rintro (rfl | ⟨x, y, rfl, hx, hy⟩)
      · exact ⟨[], by simp, rfl, by simp⟩
      · obtain ⟨l, h1, rfl, h2⟩ := ih.1 hy
        exact ⟨x :: l, by simp; omega, rfl, List.forall_mem_cons.2 ⟨hx, h2⟩⟩
    · rintro ⟨l, h1, rfl, h2⟩
      cases l with
      | nil => exact .inl rfl
      | cons x l =>
        rw [List.forall_mem_cons] at h2
        exact .inr ⟨x, l.flatten, rfl, h2.1, ih.2 ⟨l, by simp at h1; omega, rfl, h2.2⟩⟩

end Ccpp.Rx
