import Verif.Props.FortranSchemeMain
/-!
# C60: an example, and where the property fails
-/
namespace Ccpp.FSub

open Ccpp.FDecl

theorem quiet_of {s : Str} (h1 : s.all isWs = false) (h2 : '_' ∉ lower s) (h3 : ',' ∉ s)
    (h4 : (([["subroutine".toList], ["recursive".toList, "subroutine".toList], ["pure".toList, "subroutine".toList],
      ["elemental".toList, "subroutine".toList], ["end".toList, "subroutine".toList], ["end".toList, "module".toList],
      ["contains".toList], ["use".toList, "only".toList],
      ["use".toList, [','], "intrinsic".toList, "::".toList, "only".toList]] : List (List Str)).all
        fun ws => (kws ws s).isNone && ws.all fun w => w.head?.any fun c => !isWs c) = true) : Quiet s := by
  have key : ∀ ws ∈ ([["subroutine".toList], ["recursive".toList, "subroutine".toList], ["pure".toList, "subroutine".toList],
      ["elemental".toList, "subroutine".toList], ["end".toList, "subroutine".toList], ["end".toList, "module".toList],
      ["contains".toList], ["use".toList, "only".toList],
      ["use".toList, [','], "intrinsic".toList, "::".toList, "only".toList]] : List (List Str)), ¬ Begins ws s := by
    intro ws hws hb
    have := List.all_eq_true.1 h4 ws hws
    rw [Bool.and_eq_true] at this
    have hk : ∀ w ∈ ws, IsKw w := by
      intro w hw
      have := List.all_eq_true.1 this.2 w hw
      cases w with
      | nil => cases this
      | cons c r => exact ⟨c, r, rfl, by simpa using this⟩
    have h5 := (kws_iff ws hk s).2 hb
    rw [Option.isNone_iff_eq_none] at this
    rw [this.1] at h5
    cases h5
  refine ⟨?_, key _ (by simp), ?_, key _ (by simp), key _ (by simp), key _ (by simp), ⟨key _ (by simp), key _ (by simp)⟩,
    ?_, .inr fun a r e _ => h3 (by rw [e]; simp)⟩
  · intro hb
    have : s.all isWs = true := List.all_eq_true.2 hb
    rw [h1] at this
    cases this
  · intro p hp
    simp only [List.mem_cons, List.not_mem_nil, or_false] at hp
    rcases hp with rfl | rfl | rfl <;> exact key _ (by simp)
  · intro a b e
    exact h2 (by rw [e]; simp)

/-- The statements of a scheme. -/
def exHeader : Str := "subroutine run(im, Temp)".toList
def exDecl1 : Str := "integer, intent(in) :: im".toList
def exDecl2 : Str := "real, intent(inout) :: temp(im)".toList
def exCode : Str := "temp = temp + im".toList
def exEnd : Str := "end subroutine run".toList

theorem ninf (s : List Char) : (s.zip (s.drop 1)).all (fun p => !(p.1 == ':' && p.2 == ':')) = true →
    ¬ [':', ':'] <:+: s := by
  rintro h ⟨a, b, rfl⟩
  induction a with
  | nil => exact absurd h (by simp)
  | cons x a ih =>
    apply ih
    rw [List.all_eq_true] at h ⊢
    intro p hp
    refine h p ?_
    cases a with
    | nil => simp at hp ⊢; simp [hp]
    | cons y a => simp at hp ⊢; simp [hp]

/-- A scheme that meets the hypotheses of `C60_scheme_partial`, and all of whose arguments are declared. -/
theorem C60_example : ∃ d1 d2, Header exHeader "run".toList ["im".toList, "Temp".toList] ∧ Body exDecl1 d1 ∧
    Body exDecl2 d2 ∧ Quiet exCode ∧ Ends exEnd ∧
    DeclaredOnce ["im".toList, "Temp".toList] (d1 ++ d2) := by
  have b0 : Blank [] := blank_nil
  have b1 : Blank [' '] := by unfold Blank; decide
  have nm : ∀ c r, Char.isAlpha c = true → (∀ x ∈ r, x.isAlphanum = true ∨ x = '_') → Chk.IsName (c :: r) :=
    fun c r h1 h2 => ⟨c, r, rfl, h1, h2⟩
  have dim : ∀ t : List Char, (∀ c ∈ t, c ≠ '(' ∧ c ≠ ')') → (∀ c ∈ t, c ≠ '=' ∧ c ≠ '"' ∧ c ≠ '\'') → DimText t :=
    fun t h1 h2 => ⟨balance_plain h1, fun a b e => by
      rw [balance_plain fun c hc => h1 c (e ▸ List.mem_append_left _ hc)]; exact Int.le_refl _, h2⟩
  have H : Header exHeader "run".toList ["im".toList, "Temp".toList] :=
    .mk (ind := []) (pre := []) (w := "subroutine".toList) (g := [' ']) (name := "run".toList) (h := []) (rest := [])
      (args := [("im".toList, "im".toList), (" Temp".toList, "Temp".toList)]) b0 (.inl rfl) (by decide) b1 (by decide)
      (nm _ _ (by decide) (by decide)) b0 (by decide) (by
        intro a ha
        rcases List.mem_cons.1 ha with rfl | ha
        · exact ⟨[], [], b0, b0, nm _ _ (by decide) (by decide), by decide⟩
        · rw [List.mem_singleton.1 ha]
          exact ⟨[' '], [], b1, b0, nm _ _ (by decide) (by decide), by decide⟩)
  have A1 : AttrText " intent(in) ".toList (.intent "in".toList) :=
    .intent (p := [' ']) (w := "intent".toList) (g := []) (a := []) (v := "in".toList) (b := []) (q := [' '])
      b1 (by decide) b0 b0 (by decide) (by decide) b0 b1
  have A2 : AttrText " intent(inout) ".toList (.intent "inout".toList) :=
    .intent (p := [' ']) (w := "intent".toList) (g := []) (a := []) (v := "inout".toList) (b := []) (q := [' '])
      b1 (by decide) b0 b0 (by decide) (by decide) b0 b1
  have E1 : EntText " im".toList "im".toList none :=
    .scalar (p := [' ']) (n := "im".toList) (q := []) b1 (nm _ _ (by decide) (by decide)) b0
  have E2 : EntText " temp(im)".toList "temp".toList (some "(im)".toList) :=
    .array (p := [' ']) (n := "temp".toList) (g := []) (t := "im".toList) (q := []) b1 (nm _ _ (by decide) (by decide)) b0
      (dim _ (by decide) (by decide)) b0
  have D1 : Declares exDecl1 ⟨false, "integer".toList, none⟩ [.intent "in".toList] [("im".toList, none)] :=
    .mk (ind := []) (t := "integer".toList) (gap := []) (tail := []) (as := [(" intent(in) ".toList, .intent "in".toList)])
      (es := [(" im".toList, "im".toList, none)]) b0 (.plain (.one (by decide))) b0
      (by intro p hp; rw [List.mem_singleton.1 hp]; exact A1)
      (by intro p hp; rw [List.mem_singleton.1 hp]; exact E1)
      (by decide) (ninf _ (by decide)) (ninf _ (by decide)) (.inl b0)
  have D2 : Declares exDecl2 ⟨false, "real".toList, none⟩ [.intent "inout".toList] [("temp".toList, some "(im)".toList)] :=
    .mk (ind := []) (t := "real".toList) (gap := []) (tail := []) (as := [(" intent(inout) ".toList, .intent "inout".toList)])
      (es := [(" temp(im)".toList, "temp".toList, some "(im)".toList)]) b0 (.plain (.one (by decide))) b0
      (by intro p hp; rw [List.mem_singleton.1 hp]; exact A2)
      (by intro p hp; rw [List.mem_singleton.1 hp]; exact E2)
      (by decide) (ninf _ (by decide)) (ninf _ (by decide)) (.inl b0)
  refine ⟨_, _, H, .arg D1 ⟨_, List.mem_cons_self⟩, .arg D2 ⟨_, List.mem_cons_self⟩,
    quiet_of (by decide) (by decide) (by decide) (by decide), (endSub_iff _).1 (by decide), by decide, by decide⟩

/-- The names in a result. -/
def names (r : Option (Option Str × List (Str × VarRec) × List Str × List (List Str))) :
    Option (Option Str × List Str) := r.map fun x => (x.1, x.2.1.map (·.1))

/-- Lines with one statement each. -/
def text (l : List String) : List (List Str) := l.map fun s => [s.toList]

/-- The scheme of the example is read. -/
theorem C60_example_runs : names (parseScheme "run".toList false
    ([exHeader, exDecl1, exDecl2, exCode, exEnd].map fun s => [s])) =
      some (some "run".toList, ["im".toList, "temp".toList]) := by decide

/-- **C60** fails: (1) an interface block ends the argument declarations, and the scheme is refused;
(2) after a subroutine closed by a plain `end`, the table gets the name of the next subroutine; (3) so it does
from a second statement on the line of the `end subroutine`, (4) and from an assignment to a variable whose
name begins with `subroutine`; (5) two prefixes are refused; (6) an argument without intent is refused; (7) a
local variable is taken for an argument if a comment mentions an intent. -/
theorem C60_scheme_violated :
    parseScheme "run".toList false (text ["subroutine run(f, x)", "interface", "subroutine f(y)", "real, intent(in) :: y",
      "end subroutine f", "end interface", "real, intent(in) :: x", "end subroutine run", "end module m"]) = none ∧
    names (parseScheme "run".toList false (text ["subroutine run(x)", "real, intent(in) :: x", "end",
      "subroutine other(y)", "real, intent(in) :: y", "end", "end module m"])) =
        some (some "other".toList, ["x".toList]) ∧
    names (parseScheme "run".toList false [["subroutine run(x)".toList], ["real, intent(in) :: x".toList],
      ["end subroutine run".toList, "subroutine other(y)".toList], ["end subroutine other".toList]]) =
        some (some "other".toList, ["x".toList]) ∧
    names (parseScheme "run".toList false (text ["subroutine run(x)", "real, intent(in) :: x", "subroutines = 3",
      "end subroutine run", "end module m"])) = some (some "s".toList, ["x".toList]) ∧
    parseScheme "run".toList false (text ["pure elemental subroutine run(x)", "real, intent(in) :: x",
      "end subroutine run"]) = none ∧
    parseScheme "run".toList false (text ["subroutine run(x)", "real :: x", "end subroutine run"]) = none ∧
    parseScheme "run".toList false (text ["subroutine run(x)", "real, intent(in) :: x",
      "integer :: i ! unlike x, intent(in)", "end subroutine run"]) = none := by
  refine ⟨?_, ?_, ?_, ?_, ?_, ?_, ?_⟩ <;> decide

end Ccpp.FSub
