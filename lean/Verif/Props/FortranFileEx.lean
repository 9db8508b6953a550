import Verif.Props.FortranFileMain
import Verif.Props.FortranSchemeViol
/-!
# C89: an example, and where the property fails
-/
namespace Ccpp.FFile

open Ccpp.FDecl (Str VarRec Blank blank_nil)
open Ccpp.FSub (Begins kws kws_iff Header Body Quiet Ends text exHeader exDecl1 exDecl2 exCode exEnd)

/-! ## The example -/

theorem nb (ws : List Str) (s : Str)
    (h : ((kws ws s).isNone && ws.all fun w => w.head?.any fun c => !isWs c) = true) : ¬ Begins ws s := by
  intro hb
  rw [Bool.and_eq_true] at h
  have hk : ∀ w ∈ ws, FSub.IsKw w := fun w hw => kwOf (List.all_eq_true.1 h.2 w hw)
  have := (kws_iff ws hk s).2 hb
  rw [Option.isNone_iff_eq_none] at h
  rw [h.1] at this
  cases this

theorem nm {s : Str} (h : '_' ∉ lower s) : NoMark s := fun a b e => h (by rw [e]; simp)

/-- The statements. -/
def exMark (n : String) : Str := "!> \\section arg_table_".toList ++ n.toList

/-- The member of the type. -/
def exMember : VarRec where
  name := "t".toList
  ddt := false
  type := "real".toList
  kind := none
  optional := false
  allocatable := false
  intent := none
  dims := "(n)".toList

/-- The variable of the module. -/
def exVar : VarRec where
  name := "n".toList
  ddt := false
  type := "integer".toList
  kind := none
  optional := false
  allocatable := false
  intent := none
  dims := "()".toList

/-- The arguments of the scheme. -/
def exIm : VarRec := { exVar with name := "im".toList, intent := some "in".toList }
def exTemp : VarRec := { exMember with name := "temp".toList, intent := some "inout".toList, dims := "(im)".toList }

/-- The file. -/
def exFile : FileText where
  mods := [(["! physics".toList],
    { header := "module Phys".toList
      name := "Phys".toList
      parts := [.idle "use kinds".toList]
      sections :=
        [⟨exMark "state", "state".toList,
          [.type "type :: State".toList "State".toList [("real :: t(n)".toList, [exMember])]
            ["contains".toList, "procedure :: init".toList] "end type State".toList]⟩,
         ⟨exMark "phys", "phys".toList, [.decl "integer :: n".toList [exVar]]⟩]
      rest := some ("contains".toList,
        [.sub "subroutine helper(x)".toList "helper".toList ["x = 1".toList] [] ["end subroutine helper".toList],
         .scheme (exMark "run") "run".toList "!! ".toList [] exHeader "run".toList ["im".toList, "Temp".toList]
          [(exDecl1, [exIm]), (exDecl2, [exTemp]), (exCode, [])] [] exEnd])
      e := "end module Phys".toList })]
  tail := ["! the end".toList]

theorem between_of {s : Str} (h1 : '_' ∉ lower s)
    (h2 : ([["subroutine".toList], ["recursive".toList, "subroutine".toList], ["pure".toList, "subroutine".toList],
      ["elemental".toList, "subroutine".toList], ["end".toList, "subroutine".toList], ["end".toList, "module".toList],
      ["contains".toList]].all fun ws => (kws ws s).isNone && ws.all fun w => w.head?.any fun c => !isWs c) = true) :
    Between s := by
  have key : ∀ ws ∈ [["subroutine".toList], ["recursive".toList, "subroutine".toList], ["pure".toList, "subroutine".toList],
      ["elemental".toList, "subroutine".toList], ["end".toList, "subroutine".toList], ["end".toList, "module".toList],
      ["contains".toList]], ¬ Begins ws s := fun ws hws => nb ws s (List.all_eq_true.1 h2 ws hws)
  refine ⟨key _ (by simp), ?_, key _ (by simp), key _ (by simp), key _ (by simp), nm h1⟩
  intro p hp
  simp only [List.mem_cons, List.not_mem_nil, or_false] at hp
  rcases hp with rfl | rfl | rfl <;> exact key _ (by simp)

theorem idle_of {s : Str} (h0 : s.all isWs = false) (h1 : '_' ∉ lower s)
    (h2 : ((["contains".toList] :: ["end".toList, "module".toList] :: declWords.map fun w => [w]).all fun ws =>
      (kws ws s).isNone && ws.all fun w => w.head?.any fun c => !isWs c) = true) : Idle s := by
  have key : ∀ ws ∈ (["contains".toList] :: ["end".toList, "module".toList] :: declWords.map fun w => [w]), ¬ Begins ws s :=
    fun ws hws => nb ws s (List.all_eq_true.1 h2 ws hws)
  refine ⟨?_, ?_, key _ (by simp), key _ (by simp), nm h1⟩
  · intro hb
    rw [List.all_eq_true.2 hb] at h0
    cases h0
  · intro w hw
    exact key [w] (by simp only [List.mem_cons, List.mem_map]; exact .inr (.inr ⟨w, hw, rfl⟩))

theorem isname {c : Char} {r : Str} (h1 : c.isAlpha = true) (h2 : ∀ x ∈ r, x.isAlphanum = true ∨ x = '_') :
    Chk.IsName (c :: r) := ⟨c, r, rfl, h1, h2⟩

theorem marks_of {n : Str} (hn : Chk.IsName n) : Marks ("!> \\section arg_table_".toList ++ n) n :=
  ⟨[], '>', " \\section".toList, [' '], "arg_table_".toList, [], by simp, blank_nil, .inr rfl,
    .inr ⟨[' '], "\\section".toList, by decide, by unfold Blank; decide, by decide⟩, by unfold Blank; decide, by decide, hn,
    by intro c hc; cases hc⟩

/-- The example meets the hypotheses of `C89_file_partial`, with a table of each kind and a subroutine without table. -/
theorem C89_example : exFile.Ok ∧ (exFile.tables.map fun t => (t.kind, t.name, t.vars)) =
    [(.ddt, "State".toList, [exMember]), (.module, "Phys".toList, [exVar]), (.scheme, "run".toList, [exIm, exTemp])] ∧
    exFile.plain = ["helper".toList] ∧
    file false (exFile.stmts.map fun s => [s]) = .ok (exFile.tables, ["helper".toList]) := by
  have b0 : Blank [] := blank_nil
  have b1 : Blank [' '] := by unfold Blank; decide
  have ne0 : NameEnds [] := by intro c hc; cases hc
  have dim : ∀ t : List Char, (∀ c ∈ t, c ≠ '(' ∧ c ≠ ')') → (∀ c ∈ t, c ≠ '=' ∧ c ≠ '"' ∧ c ≠ '\'') → FDecl.DimText t :=
    fun t h1 h2 => ⟨FDecl.balance_plain h1, fun a b e => by
      rw [FDecl.balance_plain fun c hc => h1 c (e ▸ List.mem_append_left _ hc)]; exact Int.le_refl _, h2⟩
  have D1 : DeclaresVars "real :: t(n)".toList [exMember] := by
    have : FDecl.Declares "real :: t(n)".toList ⟨false, "real".toList, none⟩ [] [("t".toList, some "(n)".toList)] :=
      .mk (ind := []) (t := "real".toList) (gap := [' ']) (tail := []) (as := [])
        (es := [(" t(n)".toList, "t".toList, some "(n)".toList)]) b0 (.plain (.one (by decide))) b1
        (by intro p hp; cases hp)
        (by
          intro p hp; rw [List.mem_singleton.1 hp]
          exact .array (p := [' ']) (n := "t".toList) (g := []) (t := "n".toList) (q := []) b1
            (isname (by decide) (by decide)) b0 (dim _ (by decide) (by decide)) b0)
        (by decide) (FSub.ninf _ (by decide)) (FSub.ninf _ (by decide)) (.inl b0)
    exact .mk this (by intro v hv; cases hv)
  have D2 : DeclaresVars "integer :: n".toList [exVar] := by
    have : FDecl.Declares "integer :: n".toList ⟨false, "integer".toList, none⟩ [] [("n".toList, none)] :=
      .mk (ind := []) (t := "integer".toList) (gap := [' ']) (tail := []) (as := [])
        (es := [(" n".toList, "n".toList, none)]) b0 (.plain (.one (by decide))) b1
        (by intro p hp; cases hp)
        (by
          intro p hp; rw [List.mem_singleton.1 hp]
          exact .scalar (p := [' ']) (n := "n".toList) (q := []) b1 (isname (by decide) (by decide)) b0)
        (by decide) (FSub.ninf _ (by decide)) (FSub.ninf _ (by decide)) (.inl b0)
    exact .mk this (by intro v hv; cases hv)
  have hh : Header "subroutine helper(x)".toList "helper".toList ["x".toList] :=
    .mk (ind := []) (pre := []) (w := "subroutine".toList) (g := [' ']) (name := "helper".toList) (h := []) (rest := [])
      (args := [("x".toList, "x".toList)]) b0 (.inl rfl) (by decide) b1 (by decide)
      (isname (by decide) (by decide)) b0 (by decide) (by
        intro a ha
        rw [List.mem_singleton.1 ha]
        exact ⟨[], [], b0, b0, isname (by decide) (by decide), by decide⟩)
  have hbody : Header exHeader "run".toList ["im".toList, "Temp".toList] ∧ Body exDecl1 [exIm] ∧ Body exDecl2 [exTemp] ∧
      Quiet exCode ∧ Ends exEnd := by
    obtain ⟨d1, d2, h1, h2, h3, h4, h5, h6⟩ := FSub.C60_example
    have A1 : FDecl.AttrText " intent(in) ".toList (.intent "in".toList) :=
      .intent (p := [' ']) (w := "intent".toList) (g := []) (a := []) (v := "in".toList) (b := []) (q := [' '])
        b1 (by decide) b0 b0 (by decide) (by decide) b0 b1
    have A2 : FDecl.AttrText " intent(inout) ".toList (.intent "inout".toList) :=
      .intent (p := [' ']) (w := "intent".toList) (g := []) (a := []) (v := "inout".toList) (b := []) (q := [' '])
        b1 (by decide) b0 b0 (by decide) (by decide) b0 b1
    have E1 : FDecl.EntText " im".toList "im".toList none :=
      .scalar (p := [' ']) (n := "im".toList) (q := []) b1 (isname (by decide) (by decide)) b0
    have E2 : FDecl.EntText " temp(im)".toList "temp".toList (some "(im)".toList) :=
      .array (p := [' ']) (n := "temp".toList) (g := []) (t := "im".toList) (q := []) b1 (isname (by decide) (by decide)) b0
        (dim _ (by decide) (by decide)) b0
    have D1 : FDecl.Declares exDecl1 ⟨false, "integer".toList, none⟩ [.intent "in".toList] [("im".toList, none)] :=
      .mk (ind := []) (t := "integer".toList) (gap := []) (tail := []) (as := [(" intent(in) ".toList, .intent "in".toList)])
        (es := [(" im".toList, "im".toList, none)]) b0 (.plain (.one (by decide))) b0
        (by intro p hp; rw [List.mem_singleton.1 hp]; exact A1)
        (by intro p hp; rw [List.mem_singleton.1 hp]; exact E1)
        (by decide) (FSub.ninf _ (by decide)) (FSub.ninf _ (by decide)) (.inl b0)
    have D2 : FDecl.Declares exDecl2 ⟨false, "real".toList, none⟩ [.intent "inout".toList] [("temp".toList, some "(im)".toList)] :=
      .mk (ind := []) (t := "real".toList) (gap := []) (tail := []) (as := [(" intent(inout) ".toList, .intent "inout".toList)])
        (es := [(" temp(im)".toList, "temp".toList, some "(im)".toList)]) b0 (.plain (.one (by decide))) b0
        (by intro p hp; rw [List.mem_singleton.1 hp]; exact A2)
        (by intro p hp; rw [List.mem_singleton.1 hp]; exact E2)
        (by decide) (FSub.ninf _ (by decide)) (FSub.ninf _ (by decide)) (.inl b0)
    exact ⟨h1, .arg D1 ⟨_, List.mem_cons_self⟩, .arg D2 ⟨_, List.mem_cons_self⟩, h4, h5⟩
  have hok : exFile.Ok := by
    refine ⟨by simp [exFile], ?_, by simp [exFile], ?_⟩
    · intro x hx
      rw [List.mem_singleton.1 hx]
      refine ⟨?_, ?_⟩
      · intro s hs
        rw [List.mem_singleton.1 hs]
        exact ⟨nb _ _ (by decide), nb _ _ (by decide)⟩
      · refine ⟨⟨[], "module".toList, [' '], [], by decide, b0, by decide, b1, by decide, isname (by decide) (by decide), ne0⟩,
          ?_, ?_, by unfold DistinctNames; decide, ?_,
          ⟨[], "end".toList, [' '], "module".toList, [' '], [], by decide, b0, by decide, b1, by decide, b1, by decide,
            isname (by decide) (by decide), ne0⟩⟩
        · intro p hp
          rw [List.mem_singleton.1 hp]
          exact idle_of (by decide) (by decide) (by decide)
        · intro y hy
          rcases List.mem_cons.1 hy with rfl | hy
          · refine ⟨marks_of (isname (by decide) (by decide)), ?_⟩
            intro p hp
            rw [List.mem_singleton.1 hp]
            refine ⟨.attrs (b := []) (v := "type".toList) (m := [' ']) (g := [' ']) (n := "State".toList) (r := []) b0 (by decide)
              (.inl b1) (by decide) (FSub.ninf _ (by decide)) b1 (isname (by decide) (by decide)) (.inl b0), by decide, ?_,
              .inr ⟨_, _, rfl, ⟨[], "contains".toList, [], by decide, b0, by decide, trivial⟩, ?_⟩,
              (endType_iff _).1 (by decide), by unfold DistinctNames; decide⟩
            · intro m hm
              rw [List.mem_singleton.1 hm]
              exact .inl D1
            · intro s hs
              rcases List.mem_cons.1 hs with rfl | hs
              · exact nb _ _ (by decide)
              · rw [List.mem_singleton.1 hs]
                exact nb _ _ (by decide)
          · rw [List.mem_singleton.1 hy]
            refine ⟨marks_of (isname (by decide) (by decide)), ?_⟩
            intro p hp
            rw [List.mem_singleton.1 hp]
            exact D2
        · rintro y ⟨⟩
          refine ⟨⟨[], "contains".toList, [], by decide, b0, by decide, trivial⟩, ?_⟩
          intro r hr
          rcases List.mem_cons.1 hr with rfl | hr
          · refine ⟨⟨_, hh⟩, ?_, .inl rfl, _, (FSub.endSub_iff _).1 (by decide), .inl rfl⟩
            intro s hs
            rw [List.mem_singleton.1 hs]
            exact between_of (by decide) (by decide)
          · rw [List.mem_singleton.1 hr]
            refine ⟨marks_of (isname (by decide) (by decide)), ⟨[], ['!'], "! ".toList, by decide, b0, by decide, trivial⟩,
              nm (by decide), by simp, hbody.1, ?_, .inl rfl, hbody.2.2.2.2, rfl, by decide, by decide⟩
            intro p hp
            simp only [List.mem_cons, List.not_mem_nil, or_false] at hp
            rcases hp with rfl | rfl | rfl
            · exact hbody.2.1
            · exact hbody.2.2.1
            · exact .quiet hbody.2.2.2.1
    · intro s hs
      rw [List.mem_singleton.1 hs]
      exact ⟨⟨nb _ _ (by decide), nb _ _ (by decide)⟩, between_of (by decide) (by decide)⟩
  refine ⟨hok, by decide +kernel, by decide, ?_⟩
  exact C89_file_partial false ⟨by
    intro l hl
    obtain ⟨s, _, rfl⟩ := List.mem_map.1 hl
    simp, by
    generalize exFile.stmts = ss
    induction ss with
    | nil => rfl
    | cons s ss ih => rw [List.map_cons, List.flatten_cons, ih]; rfl⟩ hok

/-! ## Failures -/

/-- The kinds and names of the tables, and the subroutines. -/
def result (r : Except Exc (List Tbl × List Str)) : Option (List (Kind × Str) × List Str) :=
  match r with
  | .ok (ts, rs) => some (ts.map fun t => (t.kind, t.name), rs)
  | .error _ => none

/-- **C89** fails: a file without module has no result, whatever else it contains besides programs. -/
theorem C89_no_module_violated (logger : Bool) {ls : List (List (List Char))} (h : ∀ s ∈ ls.flatten, Outside s) :
    file logger ls = .error .error := by
  have loop : ∀ (fuel n : Nat) (ts : List Tbl) (cur : List Str) (rest : List (List Str)), (∀ s ∈ cur ++ rest.flatten, Outside s) →
      ∀ x, fileLoop logger fuel n ts none [] (cur, rest) = .ok x → x.2 = none := by
    intro fuel n
    induction n with
    | zero => intro ts cur rest _ x hx; rw [fileLoop] at hx; cases hx
    | succ n ih =>
      intro ts cur rest hout x hx
      rw [fileLoop] at hx
      cases hn : next cur rest with
      | none =>
        rw [hn] at hx
        cases hx
        rfl
      | some y =>
        obtain ⟨s, cur', rest'⟩ := y
        have sub : ∀ {rest : List (List Str)} {cur : List Str}, next cur rest = some (s, cur', rest') →
            cur ++ rest.flatten = s :: (cur' ++ rest'.flatten) := by
          intro rest
          induction rest with
          | nil =>
            intro cur hc
            cases cur with
            | nil => simp [next] at hc
            | cons c cur =>
              simp only [next, Option.some.injEq, Prod.mk.injEq] at hc
              obtain ⟨rfl, rfl, rfl⟩ := hc
              rfl
          | cons l rest ih =>
            intro cur hc
            cases cur with
            | nil =>
              rw [next] at hc
              simpa using ih hc
            | cons c cur =>
              simp only [next, Option.some.injEq, Prod.mk.injEq] at hc
              obtain ⟨rfl, rfl, rfl⟩ := hc
              rfl
        have e := sub hn
        rw [e] at hout
        obtain ⟨h1, h2⟩ := hout s (by simp)
        rw [hn] at hx
        simp only [unitStart_none h1, unitStart_none h2] at hx
        exact ih ts cur' rest' (fun t ht => hout t (List.mem_cons_of_mem _ ht)) x hx
  have hends := C89_ends logger ls
  unfold file at hends ⊢
  split
  · rfl
  · rename_i y hy
    rw [hy] at hends
    simp only at hends
    cases hf : fileLoop logger (size ls + 2) (size ls + 2) [] none [] ([], ls) with
    | error e =>
      rw [hf] at hends
      simp only at hends ⊢
      cases e with
      | error => rfl
      | fuel => exact absurd rfl hends
    | ok x =>
      have := loop _ _ _ [] ls (by simpa using h) x hf
      obtain ⟨t, r⟩ := x
      simp only at this
      subst this
      rfl

/-- **C89** fails: (1) a file with a main program only is refused; (2) a scheme whose first statement follows the
announcement of its table is refused, (3) or is read as another one if another subroutine follows; (4) a module without
`contains` cannot be followed by another module; (5) `end module` without a name is not seen; (6) a name in other letter
case in `end module` is refused; (7) the subroutines of a module are lost if another module follows; (8) a second internal
subroutine is listed as a subroutine of the module; (9) two schemes with the same table are not noticed; (10)
after `end program` without a name the next module is read as part of the program, which gets an empty table. -/
theorem C89_file_violated :
    result (file false (text ["program p", "integer :: i", "end program p"])) = none ∧
    result (file false (text ["module m", "contains", "!> \\section arg_table_run", "subroutine run(x)",
      "real, intent(in) :: x", "end subroutine run", "end module m"])) = none ∧
    result (file false (text ["module m", "contains", "!> \\section arg_table_run", "subroutine other(x)", "end subroutine other",
      "subroutine run(x)", "real, intent(in) :: x", "end subroutine run", "end module m"])) =
        some ([(.scheme, "run".toList)], []) ∧
    result (file false (text ["module m", "integer :: i", "end module m", "module k", "end module k"])) = none ∧
    result (file false (text ["module m", "contains", "subroutine s()", "end subroutine s", "end module", "module k",
      "!> \\section arg_table_k", "integer :: i", "contains", "end module k"])) = none ∧
    result (file false (text ["module Mine", "contains", "end module mine"])) = none ∧
    result (file false (text ["module m", "contains", "subroutine s()", "end subroutine s", "end module m",
      "module k", "contains", "end module k"])) = some ([], []) ∧
    result (file false (text ["module m", "contains", "subroutine s()", "contains", "subroutine a()", "end subroutine a",
      "subroutine b()", "end subroutine b", "end subroutine s", "end module m"])) = some ([], ["s".toList, "b".toList]) ∧
    result (file false (text ["module m", "contains", "!> \\section arg_table_run", "!!", "subroutine run(x)",
      "real, intent(in) :: x", "end subroutine run", "!> \\section arg_table_run", "!!", "subroutine run(x)",
      "real, intent(in) :: x", "end subroutine run", "end module m"])) =
        some ([(.scheme, "run".toList), (.scheme, "run".toList)], []) ∧
    result (file false (text ["module k", "contains", "end module k", "program p", "end program", "module m",
      "!> \\section arg_table_m", "integer :: i", "contains", "end module m"])) = some ([(.module, "p".toList)], []) := by
  refine ⟨?_, ?_, ?_, ?_, ?_, ?_, ?_, ?_, ?_, ?_⟩ <;> decide +kernel

end Ccpp.FFile
