import Verif.Props.FortranParse
/-!
# C59: an example, and where the property fails
-/
namespace Ccpp.FDecl

/-- A variable with default attributes. -/
def plainVar (n ty : String) (k : Option String) (d : String) : VarRec :=
  ⟨n.toList, false, ty.toList, k.map String.toList, false, false, none, d.toList⟩

/-- A statement that meets the hypotheses of `C59_declaration_partial`. -/
theorem C59_example : Declares "  Real(kind = kp), intent(in), optional,dimension(:, nz) :: t(n), q , w = 1 ! note".toList
    ⟨false, "Real".toList, some "kp".toList⟩
    [.intent "in".toList, .flag "optional".toList, .dims "(:, nz)".toList]
    [("t".toList, some "(n)".toList), ("q".toList, none), ("w".toList, none)] := by
  have b0 : Blank [] := blank_nil
  have b1 : Blank [' '] := by unfold Blank; decide
  have dim : ∀ t : List Char, (∀ c ∈ t, c ≠ '(' ∧ c ≠ ')') → (∀ c ∈ t, c ≠ '=' ∧ c ≠ '"' ∧ c ≠ '\'') → DimText t :=
    fun t h1 h2 => ⟨balance_plain h1, fun a b e => by
      rw [balance_plain fun c hc => h1 c (e ▸ List.mem_append_left _ hc)]; exact Int.le_refl _, h2⟩
  have name : ∀ n : Char, n.isAlpha = true → Chk.IsName [n] := fun n h =>
    ⟨n, [], rfl, h, by intro x hx; cases hx⟩
  have T : TypeText "Real(kind = kp)".toList ⟨false, "Real".toList, some "kp".toList⟩ :=
    .kind (w := "Real".toList) (g := []) (.one (by decide)) b0
      (.keyed (a := []) (w := "kind".toList) (b := [' ']) (c := [' ']) (k := "kp".toList) (d := []) b0 (by decide) b1 b1 b0)
      ⟨by decide, by decide, by decide⟩
  have A1 : AttrText " intent(in)".toList (.intent "in".toList) :=
    .intent (p := [' ']) (w := "intent".toList) (g := []) (a := []) (v := "in".toList) (b := []) (q := [])
      b1 (by decide) b0 b0 (by decide) (by decide) b0 b0
  have A2 : AttrText " optional".toList (.flag "optional".toList) :=
    .flag (p := [' ']) (w := "optional".toList) (q := []) b1 (by decide) b0
  have A3 : AttrText "dimension(:, nz) ".toList (.dims "(:, nz)".toList) :=
    .dims (p := []) (w := "dimension".toList) (g := []) (t := ":, nz".toList) (q := [' ']) b0 (by decide) b0
      (dim _ (by decide) (by decide)) b1
  have E1 : EntText " t(n)".toList "t".toList (some "(n)".toList) :=
    .array (p := [' ']) (n := ['t']) (g := []) (t := ['n']) (q := []) b1 (name _ (by decide)) b0
      (dim _ (by decide) (by decide)) b0
  have E2 : EntText " q ".toList "q".toList none :=
    .scalar (p := [' ']) (n := ['q']) (q := [' ']) b1 (name _ (by decide)) b1
  have E3 : EntText " w = 1".toList "w".toList none :=
    .init (e := " w ".toList) (v := " 1".toList) (.scalar (p := [' ']) (n := ['w']) (q := [' ']) b1 (name _ (by decide)) b1)
      (by decide) (by decide) (by decide) (no_comma_whole (by decide))
  have ninf : ∀ s : List Char, (s.zip (s.drop 1)).all (fun p => !(p.1 == ':' && p.2 == ':')) = true → ¬ [':', ':'] <:+: s := by
    rintro s h ⟨a, b, rfl⟩
    induction a with
    | nil => exact absurd h (by simp)
    | cons x a ih =>
      apply ih
      rw [List.all_eq_true] at h ⊢
      intro p hp
      refine h p ?_
      cases a with
      | nil => exact List.mem_cons_of_mem _ hp
      | cons y a => exact List.mem_cons_of_mem _ hp
  refine Declares.mk (ind := [' ', ' ']) (t := "Real(kind = kp)".toList) (gap := []) (tail := " ! note".toList)
    (as := [(" intent(in)".toList, .intent "in".toList), (" optional".toList, .flag "optional".toList),
      ("dimension(:, nz) ".toList, .dims "(:, nz)".toList)])
    (es := [(" t(n)".toList, "t".toList, some "(n)".toList), (" q ".toList, "q".toList, none),
      (" w = 1".toList, "w".toList, none)])
    (by unfold Blank; decide) T b0 ?_ ?_ (by decide) (ninf _ (by decide)) (ninf _ (by decide))
    (Or.inr ⟨[' '], " note".toList, b1, rfl⟩)
  · intro p hp
    simp only [List.mem_cons, List.not_mem_nil, or_false] at hp
    rcases hp with rfl | rfl | rfl
    · exact A1
    · exact A2
    · exact A3
  · intro p hp
    simp only [List.mem_cons, List.not_mem_nil, or_false] at hp
    rcases hp with rfl | rfl | rfl
    · exact E1
    · exact E2
    · exact E3

/-- Where **C59** fails: a character declaration with an attribute and without length, one with an
underscore in its length and an old-style one are refused; array constructors and character literals are
torn apart at their commas, equal signs and double colons; a statement that only begins with the letters of
a type is read as a declaration; and an intent outside schemes is refused or ignored, depending on
whether a logger is used. -/
theorem C59_declaration_violated :
    parseDecl true false "character, intent(out) :: c".toList = none ∧
    parseDecl true false "character(len=sl_x) :: c".toList = none ∧
    parseDecl true false "character*5 :: c".toList = none ∧
    parseDecl true false "integer :: x(2) = [1, 2]".toList =
      some [plainVar "x" "integer" none "(2)", plainVar "2]" "integer" none "()"] ∧
    parseDecl true false "character(len=3) :: s = 'a,b'".toList =
      some [plainVar "s" "character" (some "len=3") "()", plainVar "b'" "character" (some "len=3") "()"] ∧
    parseDecl true false "character(len=3) :: s = 'a=b'".toList =
      some [plainVar "s = 'a" "character" (some "len=3") "()"] ∧
    parseDecl true false "real :: x(1) = [real :: 1.0], y".toList = some [plainVar "x" "real" none "(1)"] ∧
    parseDecl true false "realization = 2".toList = some [plainVar "ization" "real" none "()"] ∧
    parseDecl false false "real, intent(in) :: y".toList = none ∧
    parseDecl false true "real, intent(in) :: y".toList = some [plainVar "y" "real" none "()"] := by
  refine ⟨?_, ?_, ?_, ?_, ?_, ?_, ?_, ?_, ?_, ?_⟩ <;> decide

/-- Where **C59** fails, with malformed text: if a logger is used, a variable whose parentheses do not match
gets the dimensions of the variable before it. -/
theorem C59_stale_dimensions : parseDecl true true "real :: x(3), y)(".toList =
    some [plainVar "x" "real" none "(3)", plainVar "y)" "real" none "(3)"] := by decide

end Ccpp.FDecl
