import Verif.Props.VarTextThm
/-!
# C90: pointers, examples, and where the property fails
-/
namespace Ccpp.VText

open Ccpp.FDecl

/-! ## Pointers -/

theorem dd_post {s : Str} : ∀ {t : Str}, ¬ [':', ':'] <:+: t → ':' ∉ s → ¬ [':', ':'] <:+: t ++ s := by
  induction s with
  | nil => intro t ht _; simpa using ht
  | cons c s ih =>
    intro t ht hs
    have := ih (dd_snoc (c := c) ht fun h => hs (by simp [h])) fun h => hs (List.mem_cons_of_mem _ h)
    simpa using this

/-- The line written for a local pointer declares it: its type, its dimensions, and the pointer attribute.  The type is
an intrinsic type with its kind, or `type` with the name of a derived type. -/
theorem C90_pointer {name kind dims vtype : Str} {m : TypeMeaning} (x : Int) (hn : Chk.IsName name)
    (ht : (KindOk vtype kind ∧ m = ⟨false, vtype, if kind = [] then none else some kind⟩) ∨
      (vtype = "type".toList ∧ Chk.IsName kind ∧ m = ⟨true, kind, some kind⟩)) (r : Nat)
    (hd : dims = if r = 0 then [] else '(' :: (commaJoin (List.replicate r [':']) ++ [')'])) :
    Declares (writePtrDef name kind dims vtype x) m [.flag "pointer".toList]
      [(name, if r = 0 then none else some dims)] := by
  have hd' : (dims = [] ∧ (if r = 0 then none else some dims) = none) ∨ ∃ t, dims = '(' :: (t ++ [')']) ∧
      (if r = 0 then none else some dims) = some dims ∧ DimText t ∧ '!' ∉ t ∧ ¬ [':', ':'] <:+: t := by
    by_cases hr : r = 0
    · rw [if_pos hr] at hd ⊢; exact .inl ⟨hd, rfl⟩
    · rw [if_neg hr] at hd ⊢; exact .inr ⟨_, hd, rfl, colons_text r⟩
  have hT : ∃ T, TypeText T m ∧ '!' ∉ T ∧
      T = if !kind.isEmpty then vtype ++ "(".toList ++ kind ++ ")".toList else vtype := by
    rcases ht with ⟨hk, rfl⟩ | ⟨hv, hk, rfl⟩
    · have := typeText_ok (v := ⟨false, false, vtype, kind, [], 0, false, false, false, false, false, none⟩) (by simpa using hk)
      unfold typeText typeOf at this
      simp only [Bool.false_eq_true, if_false] at this
      exact ⟨_, this.1, this.2, rfl⟩
    · have := typeText_ok (v := ⟨false, true, vtype, kind, [], 0, false, false, false, false, false, none⟩) (by simpa using hk)
      unfold typeText typeOf at this
      simp only [if_true, Bool.false_eq_true, if_false] at this
      have hne : kind.isEmpty = false := by
        obtain ⟨c, t, e, _⟩ := hk; rw [e]; rfl
      refine ⟨_, this.1, this.2, ?_⟩
      rw [hne, hv]; rfl
  obtain ⟨T, hT, hTb, hTe⟩ := hT
  -- the entity without the initial value
  have ent : ∀ q, Blank q → ∀ d, (dims = [] ∧ d = none) ∨ (∃ t, dims = '(' :: (t ++ [')']) ∧ d = some dims ∧ DimText t ∧ '!' ∉ t ∧ ¬ [':', ':'] <:+: t) →
      EntText (' ' :: (name ++ dims ++ q)) name d ∧ '=' ∉ ' ' :: (name ++ dims ++ q) ∧ '!' ∉ ' ' :: (name ++ dims ++ q) ∧
      ¬ [':', ':'] <:+: ' ' :: (name ++ dims ++ q) := by
    intro q hq d hd
    have hne : '=' ∉ name := fun h => absurd (RC.name_chars hn _ h) (by decide)
    have hqe : '=' ∉ q := fun h => absurd (hq _ h) (by decide)
    have hqb : '!' ∉ q := fun h => absurd (hq _ h) (by decide)
    obtain ⟨h1, h2, h3⟩ := entity_ok hn hd
    have h4 : ¬ [':', ':'] <:+: ' ' :: (name ++ dims ++ q) := by
      have := dd_post h3 (plain_colon (plain_blank hq))
      simpa using this
    have h5 : '!' ∉ ' ' :: (name ++ dims ++ q) := by
      intro hm
      have : '!' ∈ (' ' :: (name ++ dims)) ++ q := by simpa using hm
      rcases List.mem_append.1 this with h | h
      · exact h2 h
      · exact hqb h
    rcases hd with ⟨hdd, rfl⟩ | ⟨t, hdd, rfl, hdt, hb, hcc⟩
    · refine ⟨?_, ?_, h5, h4⟩
      · rw [hdd]
        have := EntText.scalar (p := [' ']) (n := name) (q := q) b1 hn hq
        simpa using this
      · rw [hdd]; simp [hne, hqe]
    · refine ⟨?_, ?_, h5, h4⟩
      · rw [hdd]
        have := EntText.array (p := [' ']) (n := name) (g := []) (t := t) (q := q) b1 hn blank_nil hdt hq
        simpa using this
      · rw [hdd]
        have : '=' ∉ t := fun h => (hdt.chars _ h).1 rfl
        simp [hne, hqe, this]
  -- the statement
  have line : ∃ bl, Blank bl ∧ ∃ q, Blank q ∧ writePtrDef name kind dims vtype x =
      T ++ (", ".toList ++ bl ++ "pointer".toList ++ "          ".toList) ++ "::".toList ++
        (' ' :: (name ++ dims ++ q) ++ '=' :: "> null()".toList) := by
    have rg : ∀ T bl q : Str, T ++ (", ".toList ++ bl) ++ ("pointer          :: ".toList ++ name ++ dims ++ q ++ " => null()".toList) =
      T ++ (", ".toList ++ bl ++ "pointer".toList ++ "          ".toList) ++ "::".toList ++
        (' ' :: (name ++ dims ++ (q ++ [' '])) ++ '=' :: "> null()".toList) := by
      intro T bl q
      have e1 : "pointer          :: ".toList = "pointer".toList ++ ("          ".toList ++ ("::".toList ++ [' '])) := rfl
      have e2 : " => null()".toList = [' '] ++ '=' :: "> null()".toList := rfl
      rw [e1, e2]
      simp only [List.append_assoc, List.cons_append, List.nil_append]
    unfold writePtrDef
    rw [hTe]
    simp only []
    split
    · exact ⟨_, blank_blanks _, _, blank_append (blank_blanks (20 - name.length - dims.length)) b1, rg _ _ _⟩
    · exact ⟨_, blank_blanks _, _, blank_append (blank_blanks (20 - name.length - dims.length)) b1, rg _ _ _⟩
  obtain ⟨bl, hbl, q, hq, e⟩ := line
  rw [e]
  obtain ⟨h1, h2, h3, h4⟩ := ent q hq _ hd'
  have hnull : ∀ a b : Str, "> null()".toList = a ++ ',' :: b → ¬ TopLevel a := by
    intro a b e
    have : ',' ∈ "> null()".toList := by rw [e]; simp
    exact absurd this (by decide)
  have hE := EntText.init h1 h2 (v := "> null()".toList) (by decide) (by decide) hnull
  have hA : AttrText (" ".toList ++ bl ++ "pointer".toList ++ "          ".toList) (.flag "pointer".toList) :=
    flagText (blank_append (blank_of (by decide)) hbl) (blank_of (by decide)) _ (by decide) (by decide)
  have hM : Plain (',' :: (" ".toList ++ bl ++ "pointer".toList ++ "          ".toList)) := by
    have := plain_append (plain_append (plain_append (plain_append (a := [',']) (plain_of (by decide)) (plain_of (s := " ".toList) (by decide)))
      (plain_blank hbl)) (plain_of (s := "pointer".toList) (by decide))) (plain_of (s := "          ".toList) (by decide))
    simpa using this
  have key := Declares.mk (ind := []) (tail := []) (gap := [])
    (as := [(" ".toList ++ bl ++ "pointer".toList ++ "          ".toList, .flag "pointer".toList)])
    (es := [(' ' :: (name ++ dims ++ q) ++ '=' :: "> null()".toList, name, if r = 0 then none else some dims)])
    blank_nil hT blank_nil
    (by intro p hp; rw [List.mem_singleton.1 hp]; exact hA)
    (by intro p hp; rw [List.mem_singleton.1 hp]; exact hE)
    (by
      intro hm
      rcases List.mem_append.1 hm with hm | hm
      · rcases List.mem_append.1 hm with hm | hm
        · exact hTb hm
        · exact plain_bang hM (by simpa using hm)
      · rcases List.mem_append.1 (show '!' ∈ (' ' :: (name ++ dims ++ q)) ++ '=' :: "> null()".toList from hm) with hm | hm
        · exact h3 hm
        · exact absurd hm (by decide))
    (by
      have := dd_pre (plain_colon hM) (dd_one ':')
      simpa using this)
    (by
      show ¬ [':', ':'] <:+: (' ' :: (name ++ dims ++ q)) ++ '=' :: "> null()".toList
      exact dd_post h4 (plain_colon (plain_of (by decide))))
    (.inl blank_nil)
  simpa [commaJoin] using key

/-- Initially the pointer is not associated. -/
theorem C90_pointer_null (name kind dims vtype : Str) (x : Int) : " => null()".toList <:+ writePtrDef name kind dims vtype x := by
  unfold writePtrDef
  simp only []
  split
  · exact ⟨_, by rw [← List.append_assoc]⟩
  · exact ⟨_, by rw [← List.append_assoc]⟩

/-! ## Examples -/

/-- An optional array argument of a scheme. -/
def exVar : Info where
  constant := false
  ddt := false
  type := "real".toList
  kind := "kind_phys".toList
  name := "temp".toList
  rank := 2
  prot := false
  polymorphic := false
  optional := true
  allocatable := false
  target := false
  intent := some "inout".toList

/-- No wish of the caller but a dummy argument. -/
def exDummy : Args := ⟨false, false, true, none, 0, none⟩

/-- A local allocatable variable. -/
def exLocal : Args := ⟨true, true, false, none, 0, none⟩

theorem exGood (a : Args) (h1 : a.addIntent = none) (h2 : a.dimstring = none) : Good exVar a "temp".toList where
  type := by
    show KindOk _ _
    exact .inr (.inl ⟨⟨by decide, by decide, by decide⟩, .one (by decide)⟩)
  name := .inl ⟨rfl, 't', "emp".toList, rfl, by decide, by decide⟩
  intent := by
    intro i hi
    rw [h1] at hi
    rcases hi with hi | hi
    · cases hi; exact ⟨by decide, by decide⟩
    · cases hi
  dims := by rw [h2]; intro d hd; cases hd

/-- An optional argument, and a local copy of it. -/
theorem C90_example :
    writeDef exVar exDummy = some (some "real(kind_phys),    intent(inout),target, optional  :: temp(:,:)".toList) ∧
    writeDef exVar exLocal = some (some "real(kind_phys),    allocatable,  target :: temp(:,:)".toList) ∧
    writeDef { exVar with ddt := true, kind := "state_t".toList, polymorphic := true, rank := 0, name := "s(:,i)".toList, prot := true } exDummy =
      some (some "class(state_t),     intent(in)    :: s".toList) ∧
    writePtrDef "p".toList "kind_phys".toList "(:,:)".toList "real".toList 0 =
      "real(kind_phys),        pointer          :: p(:,:)               => null()".toList := by decide +kernel

theorem C90_example_handled : Good exVar exDummy "temp".toList ∧ Handled exVar exDummy ∧
    Good exVar exLocal "temp".toList ∧ Handled exVar exLocal := by
  refine ⟨exGood _ rfl rfl, ⟨?_, ?_, ?_⟩, exGood _ rfl rfl, ⟨?_, ?_, ?_⟩⟩
  · decide
  · decide
  · intro _ _; exact ⟨rfl, rfl, fun _ _ _ => rfl⟩
  · decide
  · decide
  · intro h _; cases h

/-! ## Violations -/

/-- The caller's wish for a target is ignored unless the variable is to be allocatable: a scalar copy of an optional
argument, which is to be associated with a pointer, is no target. -/
theorem C90_target_violated (v : Info) (a : Args) (h : a.allocatable = false) :
    writeDef v a = writeDef v { a with target := false } := by
  unfold writeDef dimText statement intentStr
  simp only [h, Bool.false_eq_true, if_false]

/-- The attribute optional is left out for a protected dummy argument, and for an allocatable output. -/
theorem C90_optional_violated (v : Info) (a : Args) (hd : a.dummy = true)
    (h : v.prot = true ∨ (v.prot = false ∧ v.allocatable = true ∧ ∃ i, v.intent = some i ∧ isOut i = true)) :
    writeDef v a = writeDef { v with optional := false } a := by
  rcases h with h | ⟨hp, ha, i, hi, ho⟩
  · unfold writeDef dimText statement intentStr baseName
    simp only [h, hd, Bool.and_self, if_true]
  · unfold writeDef dimText statement intentStr baseName
    simp only [hp, ha, hi, ho, hd, Bool.and_self, if_true, Option.isNone_some, Bool.and_false, Bool.false_eq_true, if_false]

/-- The intent is left out of a dummy argument that is to be allocatable. -/
theorem C90_intent_violated (v : Info) (a : Args) (hd : a.dummy = true) (ha : a.allocatable = true) (hp : v.prot = false)
    (i j : Str) : writeDef { v with intent := some i } a = writeDef { v with intent := some j } a := by
  unfold writeDef dimText statement intentStr baseName
  simp only [hp, ha, hd, Bool.false_and, Bool.false_eq_true, if_false, if_true, Option.isNone_some, Bool.and_false]

/-- The attribute target can be written twice, which no compiler accepts; and a scalar that is to be allocatable (for
example of a derived type) is not. -/
theorem C90_twice_violated :
    writeDef { exVar with target := true } exDummy =
      some (some "real(kind_phys), target,intent(inout),target, optional  :: temp(:,:)".toList) ∧
    writeDef { exVar with target := true } exLocal =
      some (some "real(kind_phys), target,allocatable,  target :: temp(:,:)".toList) ∧
    writeDef { exVar with rank := 0 } exLocal = some (some "real(kind_phys)                   :: temp".toList) := by decide +kernel

end Ccpp.VText
