import Verif.Spec.Inspect
import Verif.Props.ReqVars
/-!
# C98: the inspection routines
-/
namespace Ccpp.Inspect

/-! ## Lines -/

theorem plain_head {c : Char} {r : Str} (h1 : c ≠ 'e') (h2 : c ≠ 'i') : Plain (c :: r) := by
  refine ⟨fun e => h1 (List.cons.inj e).1, fun e => h1 (List.cons.inj e).1, ?_, ?_⟩
  · rintro ⟨t, e⟩; exact h2 (List.cons.inj e).1.symm
  · rintro ⟨t, e⟩; exact h1 (List.cons.inj e).1.symm

theorem split_word {en r : Str} (h : ∀ c ∈ en, isWordC c = true) :
    (en ++ ' ' :: r).dropWhile isWordC = ' ' :: r := by
  induction en with
  | nil => rfl
  | cons c en ih =>
    rw [List.cons_append, List.dropWhile_cons, if_pos (h c List.mem_cons_self)]
    exact ih fun x hx => h x (List.mem_cons_of_mem _ hx)

theorem plain_name {en r : Str} (h : ∀ c ∈ en, isWordC c = true) : Plain (en ++ ' ' :: '=' :: r) := by
  have k := split_word (r := '=' :: r) h
  refine ⟨?_, ?_, ?_, ?_⟩
  · intro e
    rw [e] at k
    have k : ([] : Str) = ' ' :: '=' :: r := k
    cases k
  · intro e
    rw [e] at k
    have k : " if".toList = ' ' :: '=' :: r := k
    exact absurd (List.cons.inj (List.cons.inj k).2).1 (by decide)
  · rintro ⟨t, e⟩
    rw [← e] at k
    have : ("if(".toList ++ t).dropWhile isWordC = '(' :: t := rfl
    rw [this] at k
    exact absurd (List.cons.inj k).1 (by decide)
  · rintro ⟨t, e⟩
    rw [← e] at k
    have : ("else if(".toList ++ t).dropWhile isWordC = ' ' :: 'i' :: 'f' :: '(' :: t := rfl
    rw [this] at k
    exact absurd (List.cons.inj (List.cons.inj k).2).1 (by decide)

theorem name_quote {s : Str} (h : ∀ c ∈ s, isWordC c = true) : '\'' ∉ s :=
  fun hm => absurd (h _ hm) (by decide)

theorem rtrim_name {s : Str} (h : IsName s) : rtrim s = s := by
  unfold rtrim
  have : s.reverse.dropWhile (· == ' ') = s.reverse := by
    cases hr : s.reverse with
    | nil => rfl
    | cons c r =>
      have hc := h.2 c (List.mem_reverse.1 (by rw [hr]; exact List.mem_cons_self))
      have : (c == ' ') = false := by
        cases hb : c == ' ' with
        | false => rfl
        | true => rw [eq_of_beq hb] at hc; exact absurd hc (by decide)
      rw [List.dropWhile_cons, this]; rfl
  rw [this, List.reverse_reverse]

/-! ## The loop -/

theorem exec_set {nm mn en v : Str} {L : Nat} {c : Char} {r : Str} (hn : nm = c :: r) (h1 : c ≠ 'e') (h2 : c ≠ 'i') :
    ∀ (vs pre : List Str) (st : St), (∀ x ∈ vs, '\'' ∉ x) →
    st.arr = some (pre.map (fun n => some (fit L n)) ++ List.replicate vs.length none) →
    ∃ st', Exec nm mn en v L (setLines nm (pre.length + 1) vs) st st' ∧ Holds L st' (pre ++ vs) ∧ st'.err = st.err ∧
      st'.msg = st.msg
  | [], pre, st, _, h => ⟨st, .nil st, (by unfold Holds; rw [h]; simp), rfl, rfl⟩
  | x :: vs, pre, st, hq, h => by
    obtain ⟨st', e, hh, he, hm⟩ := exec_set (v := v) (en := en) (mn := mn) hn h1 h2 vs (pre ++ [x])
      { st with arr := some ((pre ++ [x]).map (fun n => some (fit L n)) ++ List.replicate vs.length none) }
      (fun y hy => hq y (List.mem_cons_of_mem _ hy)) rfl
    refine ⟨st', ?_, (by rw [List.append_assoc] at hh; exact hh), he, hm⟩
    rw [setLines]
    refine .stmt (by subst hn; exact plain_head h1 h2)
      (.set (pre.length + 1) x _ st h (by omega) (by simp) (hq x List.mem_cons_self)) ?_
    have : (pre.map (fun n => some (fit L n)) ++ List.replicate (x :: vs).length none).set (pre.length + 1 - 1) (some (fit L x)) =
        (pre ++ [x]).map (fun n => some (fit L n)) ++ List.replicate vs.length none := by
      rw [Nat.add_sub_cancel, List.length_cons, List.replicate_succ, List.set_append_right _ _ (by simp)]
      simp
    rw [this]
    rw [List.length_append] at e
    exact e

theorem exec_loop {nm mn en v : Str} {L : Nat} {c : Char} {r : Str} (hn : nm = c :: r) (h1 : c ≠ 'e') (h2 : c ≠ 'i')
    {vars : List Str} (hq : ∀ x ∈ vars, '\'' ∉ x) {st : St} (h : st.arr = none) :
    ∃ st', Exec nm mn en v L (writeVarSetLoop nm vars) st st' ∧ Holds L st' (RV.sorted vars) ∧ st'.err = st.err ∧
      st'.msg = st.msg := by
  obtain ⟨st', e, hh, he, hm⟩ := exec_set (v := v) (en := en) (mn := mn) (L := L) hn h1 h2 (RV.sorted vars) []
    { st with arr := some (List.replicate vars.length none) } (fun x hx => hq x (RV.mem_sorted.1 hx)) (by simp)
  exact ⟨st', .stmt (plain_head (by decide) (by decide)) (.alloc _ st h) e, hh, he, hm⟩

theorem plain_set {nm : Str} {c : Char} {r : Str} (hn : nm = c :: r) (h1 : c ≠ 'e') (h2 : c ≠ 'i') :
    ∀ (vs : List Str) (i : Nat), ∀ l ∈ setLines nm i vs, Plain l
  | [], i, l, hl => by cases hl
  | x :: vs, i, l, hl => by
    rcases List.mem_cons.1 hl with rfl | hl
    · subst hn; exact plain_head h1 h2
    · exact plain_set hn h1 h2 vs _ l hl

theorem plain_loop {nm : Str} {c : Char} {r : Str} (hn : nm = c :: r) (h1 : c ≠ 'e') (h2 : c ≠ 'i') (vars : List Str) :
    ∀ l ∈ writeVarSetLoop nm vars, Plain l := by
  intro l hl
  rcases List.mem_cons.1 hl with rfl | hl
  · exact plain_head (by decide) (by decide)
  · exact plain_set hn h1 h2 _ _ l hl

/-! ## The if construct -/

/-- The branches of the construct. -/
def brs (nm : Str) (vars : Suite → List Str) (body : List Str) (suites : List Suite) : List (Option Str × List Str) :=
  suites.map (fun s => (some s.name, writeVarSetLoop nm (vars s))) ++ [(none, body)]

theorem construct_is {nm : Str} {c : Char} {r : Str} (hn : nm = c :: r) (h1 : c ≠ 'e') (h2 : c ≠ 'i')
    (vars : Suite → List Str) {body : List Str} (hb : ∀ l ∈ body, Plain l) : ∀ (suites : List Suite) (first : Bool),
    (∀ s ∈ suites, IsName s.name) → (first = true → suites ≠ []) →
    Construct first (branches nm vars first suites ++ "else".toList :: (body ++ ["end if".toList]))
      (brs nm vars body suites)
  | [], first, _, h => by
    cases first with
    | true => exact absurd rfl (h rfl)
    | false => exact .otherwise hb
  | s :: ss, first, hs, _ => by
    have ih := construct_is hn h1 h2 vars hb ss false (fun x hx => hs x (List.mem_cons_of_mem _ hx)) (by simp)
    have := Construct.branch (first := first) (name_quote (hs s List.mem_cons_self).2) (plain_loop hn h1 h2 (vars s)) ih
    rw [branches, List.cons_append, List.append_assoc (writeVarSetLoop nm (vars s))]
    exact this

theorem pick_suite {nm v : Str} {vars : Suite → List Str} {body : List Str} : ∀ {suites : List Suite},
    (∀ s ∈ suites, IsName s.name) → (suites.map (·.name)).Nodup → ∀ {s : Suite}, s ∈ suites → rtrim v = s.name →
    Pick v (brs nm vars body suites) (writeVarSetLoop nm (vars s))
  | t :: ts, hn, hd, s, hs, hv => by
    rw [List.map_cons, List.nodup_cons] at hd
    have ht := rtrim_name (hn t List.mem_cons_self)
    rcases List.mem_cons.1 hs with rfl | hs
    · exact .hit (by rw [ht]; exact hv)
    · refine .miss ?_ (pick_suite (fun x hx => hn x (List.mem_cons_of_mem _ hx)) hd.2 hs hv)
      rw [ht, hv]
      intro e
      exact hd.1 (e ▸ List.mem_map.2 ⟨s, hs, rfl⟩)

theorem pick_else {nm v : Str} {vars : Suite → List Str} {body : List Str} : ∀ {suites : List Suite},
    (∀ s ∈ suites, IsName s.name) → (∀ s ∈ suites, rtrim v ≠ s.name) → Pick v (brs nm vars body suites) body
  | [], _, _ => .otherwise
  | t :: ts, hn, hv => by
    refine .miss ?_ (pick_else (fun x hx => hn x (List.mem_cons_of_mem _ hx)) fun x hx => hv x (List.mem_cons_of_mem _ hx))
    rw [rtrim_name (hn t List.mem_cons_self)]
    exact hv t List.mem_cons_self

theorem exec_append {nm mn en v : Str} {L : Nat} {ls ms : List Str} {a b c : St} (h : Exec nm mn en v L ls a b)
    (h' : Exec nm mn en v L ms b c) : Exec nm mn en v L (ls ++ ms) a c := by
  induction h with
  | nil => exact h'
  | stmt h1 h2 _ ih => exact .stmt h1 h2 (ih h')
  | ite h1 h2 h3 _ _ ih => rw [List.append_assoc]; exact .ite h1 h2 h3 (ih h')

theorem code0 {nm mn en v : Str} {L : Nat} (st : St) :
    Stmt nm mn en v L (en ++ " = 0".toList) st { st with err := some 0 } := by
  have h := Stmt.code (nm := nm) (mn := mn) (en := en) (v := v) (L := L) 0 st
  rw [List.append_assoc] at h
  exact h

theorem code1 {nm mn en v : Str} {L : Nat} (st : St) :
    Stmt nm mn en v L (en ++ " = 1".toList) st { st with err := some 1 } := by
  have h := Stmt.code (nm := nm) (mn := mn) (en := en) (v := v) (L := L) 1 st
  rw [List.append_assoc] at h
  have e : " = ".toList ++ VD.dec 1 = " = 1".toList := by
    have : VD.dec 1 = "1".toList := by unfold VD.dec; rw [if_neg (by decide), Nat.digits_of_lt 10 1 (by decide) (by decide)]; rfl
    rw [this]; rfl
  rw [e] at h
  exact h

theorem exec_body {nm mn en v : Str} {L : Nat} {c : Char} {r : Str} (hn : nm = c :: r) (h1 : c ≠ 'e') (h2 : c ≠ 'i')
    (hm : IsName mn) (he : IsName en) {vars : Suite → List Str} {suites : List Suite} (ok : SuitesOk suites)
    (hq : ∀ s ∈ suites, ∀ x ∈ vars s, '\'' ∉ x) :
    ∃ st, Exec nm mn en v L (inspectBody nm mn en vars suites) .start st ∧
      (∀ s ∈ suites, rtrim v = s.name → Holds L st (RV.sorted (vars s)) ∧ st.err = some 0 ∧ st.msg = some []) ∧
      ((∀ s ∈ suites, rtrim v ≠ s.name) → st.arr = none ∧ st.err = some 1 ∧
        st.msg = some ("No suite named ".toList ++ rtrim v ++ " found".toList)) := by
  have hb : ∀ l ∈ ["write(".toList ++ mn ++ ", '(3a)')'No suite named ', trim(suite_name), ' found'".toList,
      en ++ " = 1".toList], Plain l := by
    intro l hl
    rcases List.mem_cons.1 hl with rfl | hl
    · exact plain_head (c := 'w') (r := "rite(".toList ++ mn ++ ", '(3a)')'No suite named ', trim(suite_name), ' found'".toList)
        (by decide) (by decide)
    · rw [List.mem_singleton.1 hl]; exact plain_name he.2
  have hc := construct_is hn h1 h2 vars hb suites true ok.names fun _ => ok.some
  let st0 : St := ⟨none, some 0, some []⟩
  have hpre : ∀ {ls st}, Exec nm mn en v L ls st0 st →
      Exec nm mn en v L ([en ++ " = 0".toList, mn ++ " = ''".toList] ++ ls) .start st := fun h =>
    .stmt (plain_name he.2) (code0 .start) (.stmt (plain_name hm.2) (.clear _) h)
  have hshape : inspectBody nm mn en vars suites = [en ++ " = 0".toList, mn ++ " = ''".toList] ++
      ((branches nm vars true suites ++ "else".toList :: (["write(".toList ++ mn ++
        ", '(3a)')'No suite named ', trim(suite_name), ' found'".toList, en ++ " = 1".toList] ++ ["end if".toList])) ++ []) := by
    unfold inspectBody
    rw [List.append_nil, List.append_assoc]
    rfl
  rw [hshape]
  by_cases hx : ∃ s ∈ suites, rtrim v = s.name
  · obtain ⟨s, hs, hv⟩ := hx
    obtain ⟨st, e, g1, g2, g3⟩ := exec_loop (mn := mn) (en := en) (v := v) (L := L) hn h1 h2 (hq s hs) (st := st0) rfl
    refine ⟨st, hpre (.ite hc (pick_suite ok.names ok.nodup hs hv) e (.nil _)), ?_, fun h => absurd hv (h s hs)⟩
    intro t ht hvt
    have : t = s := by
      have hp := ok.nodup
      exact List.inj_on_of_nodup_map hp ht hs (hvt.symm.trans hv)
    subst this
    exact ⟨g1, g2, g3⟩
  · have hne : ∀ s ∈ suites, rtrim v ≠ s.name := fun s hs e => hx ⟨s, hs, e⟩
    refine ⟨_, hpre (.ite hc (pick_else ok.names hne)
      (.stmt (hb _ List.mem_cons_self) (.message _) (.stmt (hb _ (List.mem_cons_of_mem _ List.mem_cons_self)) (code1 _) (.nil _)))
      (.nil _)), fun s hs e => absurd e (hne s hs), fun _ => ⟨rfl, rfl, rfl⟩⟩

/-! ## What is listed -/

theorem toSet_mem {x : Str} : ∀ {l : List Str}, x ∈ toSet l ↔ x ∈ l
  | [] => Iff.rfl
  | y :: l => by
    rw [toSet]
    split
    · next h =>
      rw [toSet_mem, List.mem_cons]
      exact ⟨Or.inr, fun hx => hx.elim (fun e => e ▸ h) id⟩
    · rw [List.mem_cons, List.mem_cons, toSet_mem]

theorem toSet_nodup : ∀ (l : List Str), (toSet l).Nodup
  | [] => List.nodup_nil
  | y :: l => by
    rw [toSet]
    split
    · exact toSet_nodup l
    · next h => exact List.nodup_cons.2 ⟨fun hm => h (toSet_mem.1 hm), toSet_nodup l⟩

mutual
theorem schemes_iff {n : Str} : ∀ (p : Part), n ∈ p.schemes ↔ Contains p n
  | .scheme m => by
    rw [Part.schemes, List.mem_singleton]
    exact ⟨fun e => e ▸ .scheme n, fun h => by cases h; rfl⟩
  | .sub ps => by
    rw [Part.schemes, schemesList_iff ps]
    exact ⟨fun ⟨p, hp, h⟩ => .sub hp h, fun h => by cases h with | sub hp h => exact ⟨_, hp, h⟩⟩
theorem schemesList_iff {n : Str} : ∀ (ps : List Part), n ∈ schemesList ps ↔ ∃ p ∈ ps, Contains p n
  | [] => by simp [schemesList]
  | p :: ps => by
    rw [schemesList, List.mem_append, schemes_iff p, schemesList_iff ps]
    simp
end

theorem groupName_inj {s a b : Str} (h : groupName s a = groupName s b) : a = b := by
  unfold groupName at h
  exact (List.cons.inj (List.append_cancel_left h)).2

theorem drop_group (name a : Str) : (groupName name a).drop (name.length + 1) = a := by
  unfold groupName
  rw [← List.drop_drop, List.drop_left]; rfl

/-- The names of the groups for the phases other than run. -/
def phaseNames : List Str :=
  ["register".toList, "initialize".toList, "timestep_initial".toList, "finalize".toList, "timestep_final".toList]

theorem reserved_iff {name a : Str} {run : List (Str × List Part)} {phase : Str → List Part} :
    (mkSuite name run phase).reserved.contains (groupName name a) = true ↔ a ∈ phaseNames := by
  rw [List.contains_iff_mem]
  unfold mkSuite
  simp only
  rw [List.mem_map]
  exact ⟨fun ⟨b, hb, e⟩ => groupName_inj e ▸ hb, fun h => ⟨a, h, rfl⟩⟩

theorem partList_mk {name : Str} {run : List (Str × List Part)} {phase : Str → List Part}
    (h : ∀ r ∈ run, r.1 ∉ phaseNames) : partList (mkSuite name run phase) = run.map (·.1) := by
  have hr : ∀ (l : List (Str × List Part)), (∀ r ∈ l, r.1 ∉ phaseNames) →
      ((l.map fun r => (⟨groupName name r.1, r.2⟩ : Grp)).filter
        fun g => !(mkSuite name run phase).reserved.contains g.name).map (fun g => g.name.drop (name.length + 1)) =
      l.map (·.1) := by
    intro l hl
    induction l with
    | nil => rfl
    | cons r l ih =>
      have : (!(mkSuite name run phase).reserved.contains (groupName name r.1)) = true := by
        rw [Bool.not_eq_true']
        exact Bool.eq_false_iff.2 fun e => hl r List.mem_cons_self (reserved_iff.1 e)
      rw [List.map_cons, List.filter_cons, if_pos this, List.map_cons, List.map_cons, drop_group,
        ih fun x hx => hl x (List.mem_cons_of_mem _ hx)]
  have hp : ∀ (l : List Str), (∀ x ∈ l, x ∈ phaseNames) →
      (l.map fun p => (⟨groupName name p, phase p⟩ : Grp)).filter
        (fun g => !(mkSuite name run phase).reserved.contains g.name) = [] := by
    intro l hl
    rw [List.filter_eq_nil_iff]
    intro g hg
    obtain ⟨p, hp, rfl⟩ := List.mem_map.1 hg
    rw [reserved_iff.2 (hl p hp)]; decide
  have hg : (mkSuite name run phase).groups =
      (["register".toList, "initialize".toList, "timestep_initial".toList].map fun p => (⟨groupName name p, phase p⟩ : Grp)) ++
      run.map (fun r => (⟨groupName name r.1, r.2⟩ : Grp)) ++
      (["timestep_final".toList, "finalize".toList].map fun p => (⟨groupName name p, phase p⟩ : Grp)) := rfl
  unfold partList
  rw [hg, List.filter_append, List.filter_append, hp _ (by decide), hp _ (by decide), List.nil_append, List.append_nil]
  exact hr run h

/-! ## The theorems -/

/-- **C98**, parts. For every value of `suite_name`, the routine for the parts returns the names of the groups of the suite
definition file, each as often as it is there, or reports an error if there is no such suite. -/
theorem C98_parts_partial (defs : List (Str × List (Str × List Part))) (phase : Str → Str → List Part) {mn en : Str}
    (hm : IsName mn) (he : IsName en) (ok : SuitesOk (defs.map fun d => mkSuite d.1 d.2 (phase d.1)))
    (hg : ∀ d ∈ defs, ∀ r ∈ d.2, IsName r.1 ∧ r.1 ∉ phaseNames) (v : Str) (L : Nat) :
    ∃ st, Exec "part_list".toList mn en v L (partBody mn en (defs.map fun d => mkSuite d.1 d.2 (phase d.1))) .start st ∧
      (∀ d ∈ defs, rtrim v = d.1 → (∃ names, Holds L st names ∧ names.Perm (d.2.map (·.1))) ∧ st.err = some 0 ∧
        st.msg = some []) ∧
      ((∀ d ∈ defs, rtrim v ≠ d.1) → st.arr = none ∧ st.err = some 1 ∧
        st.msg = some ("No suite named ".toList ++ rtrim v ++ " found".toList)) := by
  have hl : ∀ d ∈ defs, partList (mkSuite d.1 d.2 (phase d.1)) = d.2.map (·.1) := fun d hd =>
    partList_mk fun r hr => (hg d hd r hr).2
  obtain ⟨st, h1, h2, h3⟩ := exec_body (v := v) (L := L) (nm := "part_list".toList) (c := 'p') (r := "art_list".toList) rfl
    (by decide) (by decide) hm he (vars := partList) ok (by
      intro s hs x hx
      obtain ⟨d, hd, rfl⟩ := List.mem_map.1 hs
      rw [hl d hd] at hx
      obtain ⟨r, hr, rfl⟩ := List.mem_map.1 hx
      exact name_quote (hg d hd r hr).1.2)
  refine ⟨st, h1, fun d hd hv => ?_, fun hv => h3 fun s hs => ?_⟩
  · obtain ⟨g1, g2, g3⟩ := h2 _ (List.mem_map.2 ⟨d, hd, rfl⟩) hv
    rw [hl d hd] at g1
    exact ⟨⟨_, g1, RV.sorted_perm _⟩, g2, g3⟩
  · obtain ⟨d, hd, rfl⟩ := List.mem_map.1 hs
    exact hv d hd

/-- **C98**, schemes. For every value of `suite_name`, the routine for the schemes returns exactly the names of the schemes
in the groups of the suite, each once, or reports an error if there is no such suite. -/
theorem C98_schemes {suites : List Suite} {mn en : Str} (hm : IsName mn) (he : IsName en) (ok : SuitesOk suites)
    (hn : ∀ s ∈ suites, ∀ g ∈ s.groups, ∀ p ∈ g.parts, ∀ n, Contains p n → IsName n) (v : Str) (L : Nat) :
    ∃ st, Exec "scheme_list".toList mn en v L (schemeBody mn en suites) .start st ∧
      (∀ s ∈ suites, rtrim v = s.name → (∃ names, Holds L st names ∧ names.Nodup ∧
        ∀ n, n ∈ names ↔ ∃ g ∈ s.groups, ∃ p ∈ g.parts, Contains p n) ∧ st.err = some 0 ∧ st.msg = some []) ∧
      ((∀ s ∈ suites, rtrim v ≠ s.name) → st.arr = none ∧ st.err = some 1 ∧
        st.msg = some ("No suite named ".toList ++ rtrim v ++ " found".toList)) := by
  have hmem : ∀ s : Suite, ∀ n, n ∈ suiteSchemes s ↔ ∃ g ∈ s.groups, ∃ p ∈ g.parts, Contains p n := by
    intro s n
    unfold suiteSchemes
    rw [toSet_mem, List.mem_flatMap]
    simp only [schemesList_iff]
  obtain ⟨st, h1, h2, h3⟩ := exec_body (v := v) (L := L) (nm := "scheme_list".toList) (c := 's') (r := "cheme_list".toList) rfl
    (by decide) (by decide) hm he (vars := suiteSchemes) ok (by
      intro s hs x hx
      obtain ⟨g, hg, p, hp, hc⟩ := (hmem s x).1 hx
      exact name_quote (hn s hs g hg p hp x hc).2)
  refine ⟨st, h1, fun s hs hv => ?_, h3⟩
  obtain ⟨g1, g2, g3⟩ := h2 s hs hv
  exact ⟨⟨_, g1, RV.nodup_sorted.2 (toSet_nodup _), fun n => by rw [RV.mem_sorted, hmem]⟩, g2, g3⟩

theorem suiteLines_eq : ∀ (i : Nat) (ss : List Suite), suiteLines i ss = setLines "suites".toList (i + 1) (ss.map (·.name))
  | _, [] => rfl
  | i, s :: ss => by rw [suiteLines, List.map_cons, setLines, suiteLines_eq]; rfl

/-- **C98**, suites. The list of suites holds the names of all suites in their order. -/
theorem C98_suites {suites : List Suite} (hn : ∀ s ∈ suites, IsName s.name) (mn en v : Str) (L : Nat) :
    ∃ st, Exec "suites".toList mn en v L (suiteBody suites) .start st ∧ Holds L st (suites.map (·.name)) := by
  obtain ⟨st, e, hh, _⟩ := exec_set (v := v) (en := en) (mn := mn) (L := L) (nm := "suites".toList) (c := 's') (r := "uites".toList)
    rfl (by decide) (by decide) (suites.map (·.name)) [] { St.start with arr := some (List.replicate suites.length none) } (by
      intro x hx
      obtain ⟨s, hs, rfl⟩ := List.mem_map.1 hx
      exact name_quote (hn s hs).2) (by simp)
  refine ⟨st, ?_, hh⟩
  unfold suiteBody
  rw [suiteLines_eq]
  exact .stmt (plain_head (by decide) (by decide)) (Stmt.alloc (nm := "suites".toList) suites.length .start rfl) e

/-- A group of the suite definition file with the name of a phase is not listed. -/
theorem C98_reserved_violated :
    let s := mkSuite "phys".toList [("physics".toList, []), ("initialize".toList, [])] fun _ => []
    ∃ st, Exec "part_list".toList "errmsg".toList "errflg".toList "phys".toList 8 (partBody "errmsg".toList "errflg".toList [s]) .start st ∧
      Holds 8 st ["physics".toList] := by
  intro s
  have hs : partList s = ["physics".toList] := by decide
  obtain ⟨st, h1, h2, _⟩ := exec_body (v := "phys".toList) (L := 8) (nm := "part_list".toList) (c := 'p') (r := "art_list".toList) rfl
    (by decide) (by decide) (mn := "errmsg".toList) (en := "errflg".toList) ⟨by decide, by decide⟩ ⟨by decide, by decide⟩
    (vars := partList) (suites := [s]) ⟨by simp, (by intro t ht; rw [List.mem_singleton.1 ht]; exact ⟨by decide, by decide⟩), by simp⟩
    (by intro t ht x hx; rw [List.mem_singleton.1 ht, hs, List.mem_singleton] at hx; subst hx; decide)
  obtain ⟨g, _⟩ := h2 s List.mem_cons_self (by decide)
  rw [hs] at g
  exact ⟨st, h1, g⟩

/-! ## The hypotheses are met -/

/-- Two suites. -/
def exDefs : List (Str × List (Str × List Part)) :=
  [("phys_a".toList, [("physics".toList, [.sub [.scheme "rad".toList, .sub [.scheme "mp".toList, .scheme "rad".toList]]]),
     ("dynamics".toList, [.scheme "dyn".toList])]),
   ("phys_b".toList, [("physics".toList, [.scheme "mp".toList])])]

theorem ex_ok : SuitesOk (exDefs.map fun d => mkSuite d.1 d.2 fun _ => []) := by
  refine ⟨by simp [exDefs], ?_, by decide⟩
  intro s hs
  simp only [exDefs, List.map_cons, List.map_nil, List.mem_cons, List.not_mem_nil, or_false] at hs
  rcases hs with rfl | rfl <;> exact ⟨by simp [mkSuite], (by simp only [mkSuite]; decide)⟩

example := C98_parts_partial exDefs (fun _ _ => []) (mn := "errmsg".toList) (en := "errflg".toList) ⟨by decide, by decide⟩
  ⟨by decide, by decide⟩ ex_ok (by
    intro d hd r hr
    simp only [exDefs, List.mem_cons, List.not_mem_nil, or_false] at hd
    rcases hd with rfl | rfl <;> simp only [List.mem_cons, List.not_mem_nil, or_false] at hr
    · rcases hr with rfl | rfl <;> exact ⟨⟨by decide, by decide⟩, by decide⟩
    · subst hr; exact ⟨⟨by decide, by decide⟩, by decide⟩) "phys_a  ".toList 10

example : suiteSchemes (mkSuite "phys_a".toList [("physics".toList,
    [.sub [.scheme "rad".toList, .sub [.scheme "mp".toList, .scheme "rad".toList]]])] fun _ => []) =
    ["mp".toList, "rad".toList] := by decide

end Ccpp.Inspect
