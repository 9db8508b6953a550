import Verif.Spec.StaticApi
/-!
# C72: the static API of prebuild executes what the suites say
-/
namespace Ccpp.SA

/-! ## Calls one after another -/

theorem attempt_append (beh : List Event → Int) : ∀ (a b tr : List Event),
    attempt beh tr (a ++ b) = if (attempt beh tr a).1 = 0 then attempt beh (attempt beh tr a).2 b else attempt beh tr a
  | [], b, tr => by simp [attempt]
  | e :: a, b, tr => by
    simp only [List.cons_append, attempt]
    split
    · exact attempt_append beh a b _
    · rename_i h; simp [h]

theorem callAll_returned (beh : List Event → Int) (i : Nat) : ∀ (rs : List Str) (fw : Frame × World), fw.1.returned = true →
    callAll beh i fw rs = fw
  | [], _, _ => rfl
  | r :: rs, fw, h => by
    have h1 : callOne beh i fw r = fw := by simp [callOne, h]
    show callAll beh i (callOne beh i fw r) rs = fw
    rw [h1]; exact callAll_returned beh i rs fw h

/-- The result of some statements that call `evs` -/
def Res (beh : List Event → Int) (w : World) (evs : List Event) (r : Frame × World) : Prop :=
  r.1.ierr = (attempt beh w.trace evs).1 ∧ r.1.returned = decide ((attempt beh w.trace evs).1 ≠ 0) ∧
    r.2 = { w with trace := (attempt beh w.trace evs).2 }

theorem callAll_res (beh : List Event → Int) (i : Nat) : ∀ (rs : List Str) (f : Frame) (w : World), f.returned = false → f.ierr = 0 →
    Res beh w (rs.map fun r => ⟨r, i, f.counter, f.extent⟩) (callAll beh i (f, w) rs) ∧
      (callAll beh i (f, w) rs).1.counter = f.counter ∧ (callAll beh i (f, w) rs).1.extent = f.extent
  | [], f, w, h, h0 => ⟨⟨h0, by simp [callAll, attempt, h], rfl⟩, rfl, rfl⟩
  | r :: rs, f, w, h, h0 => by
    show Res beh w _ (callAll beh i (callOne beh i (f, w) r) rs) ∧ (callAll beh i (callOne beh i (f, w) r) rs).1.counter = _ ∧
      (callAll beh i (callOne beh i (f, w) r) rs).1.extent = _
    by_cases hc : beh (w.trace ++ [⟨r, i, f.counter, f.extent⟩]) = 0
    · have h1 : callOne beh i (f, w) r = ({ f with errflg := 0 }, { w with trace := w.trace ++ [⟨r, i, f.counter, f.extent⟩] }) := by
        simp [callOne, h, hc, h0]
      rw [h1]
      obtain ⟨hr, h2, h3⟩ := callAll_res beh i rs { f with errflg := 0 } { w with trace := w.trace ++ [⟨r, i, f.counter, f.extent⟩] } h h0
      refine ⟨?_, h2, h3⟩
      simp only [Res, List.map_cons, attempt, hc, if_true] at hr ⊢
      exact hr
    · rw [callAll_returned]
      · refine ⟨?_, ?_, ?_⟩
        · simp [Res, callOne, h, hc, attempt]
        · simp [callOne, h]
        · simp [callOne, h]
      · simp [callOne, h, hc]

theorem iterate_returned (beh : List Event → Int) (i : Nat) (rs : List Str) (k : Nat) (c : Int) (fw : Frame × World)
    (h : fw.1.returned = true) : iterate beh i rs k c fw = fw := by
  cases k <;> simp [iterate, h]

theorem res_append {beh : List Event → Int} {w : World} {a b : List Event} {r q : Frame × World} (hr : Res beh w a r)
    (hz : r.1.returned = true → q = r) (hn : r.1.returned = false → r.1.ierr = 0 → Res beh r.2 b q) : Res beh w (a ++ b) q := by
  obtain ⟨h1, h2, h3⟩ := hr
  unfold Res
  rw [attempt_append]
  by_cases h0 : (attempt beh w.trace a).1 = 0
  · have := hn (by simp [h2, h0]) (by rw [h1, h0])
    rw [h3] at this
    simpa [h0, Res] using this
  · rw [hz (by simp [h2, h0]), if_neg h0]
    exact ⟨h1, h2, h3⟩

theorem iterate_res (beh : List Event → Int) (i : Nat) (rs : List Str) : ∀ (k : Nat) (c : Int) (f : Frame) (w : World),
    f.returned = false → f.ierr = 0 →
    Res beh w ((List.range k).map fun (j : Nat) => rs.map fun r => (⟨r, i, c + j, f.extent⟩ : Event)).flatten (iterate beh i rs k c (f, w))
  | 0, _, _, _, h, h0 => ⟨h0, by simp [iterate, attempt, h], rfl⟩
  | k + 1, c, f, w, h, h0 => by
    have he : ((List.range (k + 1)).map fun (j : Nat) => rs.map fun r => (⟨r, i, c + j, f.extent⟩ : Event)).flatten =
        (rs.map fun r => (⟨r, i, c, f.extent⟩ : Event)) ++
          ((List.range k).map fun (j : Nat) => rs.map fun r => (⟨r, i, c + 1 + j, f.extent⟩ : Event)).flatten := by
      rw [List.range_succ_eq_map]
      simp only [List.map_cons, List.flatten_cons, List.map_map]
      congr 1
      · simp
      · congr 1
        apply List.map_congr_left
        intro j _
        simp only [Function.comp]
        congr 1
        funext r
        congr 1
        omega
    rw [he]
    have hi : iterate beh i rs (k + 1) c (f, w) = iterate beh i rs k (c + 1) (callAll beh i ({ f with counter := c }, w) rs) := by
      show (if f.returned then _ else _) = _
      rw [if_neg (by simp [h])]
    rw [hi]
    obtain ⟨hr, h2, h3⟩ := callAll_res beh i rs { f with counter := c } w h h0
    refine res_append (r := callAll beh i ({ f with counter := c }, w) rs) hr (fun hz => iterate_returned beh i rs k _ _ hz) (fun hn hi => ?_)
    have := iterate_res beh i rs k (c + 1) (callAll beh i ({ f with counter := c }, w) rs).1 (callAll beh i ({ f with counter := c }, w) rs).2 hn hi
    rw [h3] at this
    exact this

/-! ## Statements -/

/-- Statements that only call, and call `evs` -/
def Does (beh : List Event → Int) (m : Str) (i : Nat) (ss : List Stmt) (evs : List Event) : Prop :=
  ∀ f w, f.returned = false → f.ierr = 0 → Res beh w evs (ss.foldl (execStmt beh m i) (f, w))

theorem exec_returned (beh : List Event → Int) (m : Str) (i : Nat) : ∀ (ss : List Stmt) (fw : Frame × World), fw.1.returned = true →
    ss.foldl (execStmt beh m i) fw = fw
  | [], _, _ => rfl
  | s :: ss, fw, h => by
    have h1 : execStmt beh m i fw s = fw := by simp [execStmt, h]
    rw [List.foldl_cons, h1]; exact exec_returned beh m i ss fw h

theorem Does.append {beh : List Event → Int} {m : Str} {i : Nat} {a b : List Stmt} {ea eb : List Event} (ha : Does beh m i a ea)
    (hb : Does beh m i b eb) : Does beh m i (a ++ b) (ea ++ eb) := by
  intro f w h h0
  rw [List.foldl_append]
  refine res_append (ha f w h h0) (fun hz => exec_returned beh m i b _ hz) (fun hn hi => ?_)
  exact hb _ _ hn hi

theorem Does.nil (beh : List Event → Int) (m : Str) (i : Nat) : Does beh m i [] [] := fun _ _ h h0 => ⟨h0, by simp [attempt, h], rfl⟩

/-- The calls of one subcycle -/
def subPlanned (has : Str → Stage → Bool) (st : Stage) (i : Nat) (sub : Int × List Str) : List Event :=
  let schemes := sub.2.filter fun s => has s st
  if st = .run then
    ((List.range sub.1.toNat).map fun (c : Nat) => schemes.map fun s => (⟨s ++ ['_'] ++ st.full, i, c + 1, sub.1⟩ : Event)).flatten
  else schemes.map fun s => ⟨s ++ ['_'] ++ st.full, i, 1, 1⟩

theorem routine_eq (s : Str) (st : Stage) : routine s st = s ++ ['_'] ++ st.full := by simp [routine]

theorem subBody_does (has : Str → Stage → Bool) (beh : List Event → Int) (m : Str) (i : Nat) (st : Stage) (sub : Int × List Str)
    (hl : 1 ≤ sub.1) : Does beh m i (subBody has st sub) (subPlanned has st i sub) := by
  unfold subBody
  simp only
  by_cases hrs : subCalls has st sub.2 = []
  · rw [if_pos hrs]
    have hf : (sub.2.filter fun s => has s st) = [] := by simpa [subCalls] using hrs
    have : subPlanned has st i sub = [] := by
      unfold subPlanned
      simp only [hf, List.map_nil]
      split
      · have : ∀ n, ((List.range n).map fun (_ : Nat) => ([] : List Event)).flatten = [] := by
          intro n; simp
        exact this _
      · rfl
    rw [this]; exact Does.nil beh m i
  · rw [if_neg hrs]
    intro f w h h0
    by_cases h1 : 1 < sub.1 ∧ st = .run
    · rw [if_pos h1, if_pos h1.2]
      simp only [List.foldl_cons, List.foldl_nil]
      have e1 : execStmt beh m i (f, w) (.extent sub.1) = ({ f with extent := sub.1 }, w) := by simp [execStmt, h]
      rw [e1]
      have e2 : execStmt beh m i ({ f with extent := sub.1 }, w) (.doLoop sub.1 (subCalls has st sub.2)) =
          iterate beh i (subCalls has st sub.2) sub.1.toNat 1 ({ f with extent := sub.1 }, w) := by simp [execStmt, h]
      rw [e2]
      have := iterate_res beh i (subCalls has st sub.2) sub.1.toNat 1 { f with extent := sub.1 } w h h0
      convert this using 1
      unfold subPlanned
      rw [if_pos h1.2]
      congr 1
      apply List.map_congr_left
      intro c _
      simp only [subCalls, List.map_map]
      apply List.map_congr_left
      intro s _
      simp only [Function.comp, routine_eq, Event.mk.injEq, true_and, and_true]
      omega
    · rw [if_neg h1]
      simp only [List.foldl_cons, List.foldl_nil]
      have e1 : ∀ n, execStmt beh m i (f, w) (.extent n) = ({ f with extent := n }, w) := by intro n; simp [execStmt, h]
      rw [e1]
      have e2 : ∀ n, execStmt beh m i ({ f with extent := n }, w) (.counter 1) = ({ f with extent := n, counter := 1 }, w) := by
        intro n; simp [execStmt, h]
      rw [e2]
      have e3 : ∀ n, execStmt beh m i ({ f with extent := n, counter := 1 }, w) (.calls (subCalls has st sub.2)) =
          callAll beh i ({ f with extent := n, counter := 1 }, w) (subCalls has st sub.2) := by intro n; simp [execStmt, h]
      rw [e3]
      have := (callAll_res beh i (subCalls has st sub.2) { f with extent := if st = .run then sub.1 else 1, counter := 1 } w h h0).1
      convert this using 1
      unfold subPlanned
      by_cases hst : st = .run
      · have hone : sub.1 = 1 := by
          have := mt (fun h => And.intro h hst) h1
          omega
        simp only [hst, if_true, hone, subCalls, List.map_map]
        simp [routine_eq, Function.comp]
      · simp only [hst, if_false, subCalls, List.map_map]
        apply List.map_congr_left
        intro s _
        simp [routine_eq]

theorem planned_eq (has : Str → Stage → Bool) (st : Stage) (i : Nat) (g : PB.Group) :
    planned has st i g = (g.subs.map (subPlanned has st i)).flatten := rfl

theorem subs_does (has : Str → Stage → Bool) (beh : List Event → Int) (m : Str) (i : Nat) (st : Stage) : ∀ (subs : List (Int × List Str)),
    (∀ sub ∈ subs, (1 : Int) ≤ sub.1) → Does beh m i (subs.map (subBody has st)).flatten (subs.map (subPlanned has st i)).flatten
  | [], _ => Does.nil beh m i
  | sub :: subs, h => by
    simp only [List.map_cons, List.flatten_cons]
    exact (subBody_does has beh m i st sub (h sub (List.mem_cons_self ..))).append
      (subs_does has beh m i st subs fun s hs => h s (List.mem_cons_of_mem _ hs))

theorem planned_nil_of_noArgs (has : Str → Stage → Bool) (st : Stage) (i : Nat) (g : PB.Group) (h : hasArgs has g st = false) :
    planned has st i g = [] ∧ st ≠ .init := by
  unfold hasArgs at h
  simp only [Bool.or_eq_false_iff, decide_eq_false_iff_not, List.any_eq_false, Bool.not_eq_true'] at h
  refine ⟨?_, h.1⟩
  rw [planned_eq]
  simp only [List.flatten_eq_nil_iff, List.mem_map]
  rintro l ⟨sub, hs, rfl⟩
  have h2 := h.2 sub hs
  have hf : (sub.2.filter fun s => has s st) = [] := by
    have : subCalls has st sub.2 = [] := by simpa using h2
    simpa [subCalls] using this
  unfold subPlanned
  simp only [hf, List.map_nil]
  split
  · simp
  · rfl

/-- What the function of a group cap really does -/
def realGroup (has : Str → Stage → Bool) (beh : List Event → Int) (st : Stage) (m : Str) (i : Nat) (g : PB.Group) (w : World) : Int × World :=
  let a := attempt beh w.trace (planned has st i g)
  let y : World := { w with trace := a.2 }
  match st with
  | .init => if w.flag m i then (0, w) else
      (a.1, if a.1 = 0 then { y with flag := fun m' i' => if m' = m ∧ i' = i then true else w.flag m' i' } else y)
  | .final => if w.flag m i ∨ hasArgs has g .final = false then
      (a.1, if a.1 = 0 then { y with flag := fun m' i' => if m' = m then false else w.flag m' i' } else y) else (0, w)
  | _ => if w.flag m i then (a.1, y) else (0, w)

theorem attempt_nil (beh : List Event → Int) (tr : List Event) : attempt beh tr [] = (0, tr) := rfl

/-- The set block -/
def applySet (st : Stage) (m : Str) (i : Nat) (w : World) : World :=
  match st with
  | .init => { w with flag := fun m' i' => if m' = m ∧ i' = i then true else w.flag m' i' }
  | .final => { w with flag := fun m' i' => if m' = m then false else w.flag m' i' }
  | _ => w

theorem set_exec (beh : List Event → Int) (m : Str) (i : Nat) (st : Stage) (f : Frame) (w : World) :
    (setBlock st).foldl (execStmt beh m i) (f, w) = (f, if f.returned = false then applySet st m i w else w) := by
  by_cases h : f.returned = true
  · rw [exec_returned _ _ _ _ _ h]; simp [h]
  · have h : f.returned = false := by simpa using h
    cases st <;> simp [setBlock, execStmt, applySet, h]

theorem execGroup_eq (has : Str → Stage → Bool) (beh : List Event → Int) (m : Str) (i : Nat) (st : Stage) (g : PB.Group) (w : World)
    (hl : ∀ sub ∈ g.subs, (1 : Int) ≤ sub.1) :
    (execGroup beh m i (groupBody has g st) w).1 = (realGroup has beh st m i g w).1 ∧
    (execGroup beh m i (groupBody has g st) w).2.2 = (realGroup has beh st m i g w).2 := by
  have hd := subs_does has beh m i st g.subs hl
  -- the body and the set block
  have post : ∀ f : Frame, f.returned = false → f.ierr = 0 →
      (((g.subs.map (subBody has st)).flatten ++ setBlock st).foldl (execStmt beh m i) (f, w)).1.ierr =
        (attempt beh w.trace (planned has st i g)).1 ∧
      (((g.subs.map (subBody has st)).flatten ++ setBlock st).foldl (execStmt beh m i) (f, w)).2 =
        if (attempt beh w.trace (planned has st i g)).1 = 0 then
          applySet st m i { w with trace := (attempt beh w.trace (planned has st i g)).2 }
        else { w with trace := (attempt beh w.trace (planned has st i g)).2 } := by
    intro f hf hf0
    rw [List.foldl_append]
    obtain ⟨h1, h2, h3⟩ := hd f w hf hf0
    generalize (g.subs.map (subBody has st)).flatten.foldl (execStmt beh m i) (f, w) = q at h1 h2 h3
    obtain ⟨qf, qw⟩ := q
    rw [set_exec]
    rw [← planned_eq] at h1 h2 h3
    simp only at h1 h2 h3
    refine ⟨h1, ?_⟩
    simp only [h2, h3, decide_eq_false_iff_not, Decidable.not_not]
  have gone : ∀ f : Frame, f.returned = true →
      ((g.subs.map (subBody has st)).flatten ++ setBlock st).foldl (execStmt beh m i) (f, w) = (f, w) :=
    fun f hf => exec_returned _ _ _ _ _ hf
  unfold execGroup groupBody
  simp only [List.append_assoc]
  by_cases hargs : hasArgs has g st = true
  · simp only [hargs, if_true]
    rw [List.foldl_append]
    by_cases hflag : w.flag m i = true
    · have hgo : (st = .init ∧ ∃ f : Frame, f.ierr = 0 ∧ f.returned = true ∧ (testBlock st).foldl (execStmt beh m i) (⟨0, false, 0, 1, 1⟩, w) = (f, w)) ∨
          (st ≠ .init ∧ ∃ f : Frame, f.ierr = 0 ∧ f.returned = false ∧ (testBlock st).foldl (execStmt beh m i) (⟨0, false, 0, 1, 1⟩, w) = (f, w)) := by
        cases st
        · exact Or.inr ⟨by decide, ⟨0, false, 0, 1, 1⟩, rfl, rfl, by simp [testBlock, execStmt, hflag]⟩
        · exact Or.inr ⟨by decide, ⟨0, false, 0, 1, 1⟩, rfl, rfl, by simp [testBlock, execStmt, hflag]⟩
        · exact Or.inl ⟨rfl, ⟨0, true, 0, 1, 1⟩, rfl, rfl, by simp [testBlock, execStmt, hflag]⟩
        · exact Or.inr ⟨by decide, ⟨0, false, 0, 1, 1⟩, rfl, rfl, by simp [testBlock, execStmt, hflag]⟩
        · exact Or.inr ⟨by decide, ⟨0, false, 0, 1, 1⟩, rfl, rfl, by simp [testBlock, execStmt, hflag]⟩
      rcases hgo with ⟨hst, f, hf0, hf, hfw⟩ | ⟨hst, f, hf0, hf, hfw⟩
      · rw [hfw, gone f hf]
        subst hst
        simp [realGroup, hflag, hf0]
      · rw [hfw]
        obtain ⟨p1, p2⟩ := post f hf hf0
        rw [p1, p2]
        cases st <;> first | exact absurd rfl hst | simp [realGroup, hflag, applySet]
    · have hflag : w.flag m i = false := by simpa using hflag
      have hgo : (st ≠ .init ∧ ∃ f : Frame, f.ierr = 0 ∧ f.returned = true ∧ (testBlock st).foldl (execStmt beh m i) (⟨0, false, 0, 1, 1⟩, w) = (f, w)) ∨
          (st = .init ∧ ∃ f : Frame, f.ierr = 0 ∧ f.returned = false ∧ (testBlock st).foldl (execStmt beh m i) (⟨0, false, 0, 1, 1⟩, w) = (f, w)) := by
        cases st
        · exact Or.inl ⟨by decide, ⟨0, true, 1, 1, 1⟩, rfl, rfl, by simp [testBlock, execStmt, hflag]⟩
        · exact Or.inl ⟨by decide, ⟨0, true, 1, 1, 1⟩, rfl, rfl, by simp [testBlock, execStmt, hflag]⟩
        · exact Or.inr ⟨rfl, ⟨0, false, 0, 1, 1⟩, rfl, rfl, by simp [testBlock, execStmt, hflag]⟩
        · exact Or.inl ⟨by decide, ⟨0, true, 1, 1, 1⟩, rfl, rfl, by simp [testBlock, execStmt, hflag]⟩
        · exact Or.inl ⟨by decide, ⟨0, true, 0, 1, 1⟩, rfl, rfl, by simp [testBlock, execStmt, hflag]⟩
      rcases hgo with ⟨hst, f, hf0, hf, hfw⟩ | ⟨hst, f, hf0, hf, hfw⟩
      · rw [hfw, gone f hf]
        cases st <;> first | exact absurd rfl hst | simp [realGroup, hflag, hf0, hargs]
      · rw [hfw]
        obtain ⟨p1, p2⟩ := post f hf hf0
        rw [p1, p2]
        subst hst
        simp [realGroup, hflag, applySet]
  · have hargs : hasArgs has g st = false := by simpa using hargs
    obtain ⟨hp, hni⟩ := planned_nil_of_noArgs has st i g hargs
    simp only [hargs, Bool.false_eq_true, if_false, List.nil_append]
    obtain ⟨p1, p2⟩ := post ⟨0, false, 0, 1, 1⟩ rfl rfl
    rw [p1, p2, hp, attempt_nil]
    cases st <;> first | exact absurd rfl hni | simp [realGroup, hp, attempt_nil, applySet, hargs]

/-! ## Names -/

theorem find_of_mem {α : Type} {k : Str} {v : α} : ∀ {l : List (Str × α)}, (l.map (·.1)).Nodup → (k, v) ∈ l → find k l = some v
  | [], _, h => absurd h (by simp)
  | e :: l, hn, h => by
    simp only [List.map_cons, List.nodup_cons] at hn
    unfold find
    rcases List.mem_cons.1 h with rfl | h
    · simp
    · have : e.1 ≠ k := fun he => hn.1 (he ▸ List.mem_map.2 ⟨(k, v), h, rfl⟩)
      rw [if_neg this]
      exact find_of_mem hn.2 h

theorem find_none {α : Type} {k : Str} : ∀ {l : List (Str × α)}, (∀ v, (k, v) ∉ l) → find k l = none
  | [], _ => rfl
  | e :: l, h => by
    unfold find
    have : e.1 ≠ k := fun he => h e.2 (by rw [← he]; exact List.mem_cons_self ..)
    rw [if_neg this]
    exact find_none fun v hv => h v (List.mem_cons_of_mem _ hv)

theorem program_groupFns_keys (has : Str → Stage → Bool) (suites : List PB.Suite) :
    (program has suites).groupFns.map (·.1) =
      (suites.map fun s => (s.groups.map fun g => (allStages.filter (inStage g)).map (groupFn s.name g)).flatten).flatten := by
  simp [program, groupFns, List.map_flatten, Function.comp_def]

theorem program_suiteFns_keys (has : Str → Stage → Bool) (suites : List PB.Suite) :
    (program has suites).suiteFns.map (·.1) = (suites.map fun s => allStages.map (suiteFn s.name)).flatten := by
  simp [program, suiteFns, List.map_flatten, Function.comp_def]

theorem mem_allStages (st : Stage) : st ∈ allStages := by cases st <;> decide

theorem find_groupFn {suites : List PB.Suite} (hL : Linkable suites) (has : Str → Stage → Bool) {s : PB.Suite} (hs : s ∈ suites)
    {g : PB.Group} (hg : g ∈ s.groups) {st : Stage} (hi : inStage g st = true) :
    find (groupFn s.name g st) (program has suites).groupFns = some (groupModule s.name g, groupBody has g st) := by
  apply find_of_mem
  · rw [program_groupFns_keys]
    exact (List.nodup_append.1 hL.1).2.1
  · simp only [program, List.mem_flatten, List.mem_map]
    refine ⟨_, ⟨s, hs, rfl⟩, ?_⟩
    simp only [List.mem_flatten, List.mem_map]
    refine ⟨_, ⟨g, hg, rfl⟩, ?_⟩
    simp only [groupFns, List.mem_map, List.mem_filter]
    exact ⟨st, ⟨mem_allStages st, hi⟩, rfl⟩

theorem find_suiteFn {suites : List PB.Suite} (hL : Linkable suites) (has : Str → Stage → Bool) {s : PB.Suite} (hs : s ∈ suites)
    (st : Stage) : find (suiteFn s.name st) (program has suites).suiteFns =
      some ((s.groups.filter fun g => inStage g st).map fun g => groupFn s.name g st) := by
  apply find_of_mem
  · rw [program_suiteFns_keys]
    exact (List.nodup_append.1 hL.1).1
  · simp only [program, List.mem_flatten, List.mem_map]
    refine ⟨_, ⟨s, hs, rfl⟩, ?_⟩
    simp only [suiteFns, List.mem_map]
    exact ⟨st, mem_allStages st, rfl⟩

theorem findCase_eq (k : Str) (st : Stage) : ∀ (suites : List PB.Suite), findCase k (apiSwitch suites st) =
    (suites.find? fun s => s.name = k).map fun s =>
      ⟨s.name, (s.groups.filter fun g => inStage g st).map (fun g => (groupName g, groupFn s.name g st)), suiteFn s.name st⟩
  | [] => rfl
  | s :: suites => by
    show (if s.name = k then _ else findCase k (apiSwitch suites st)) = _
    by_cases h : s.name = k
    · simp [h]
    · simp [h, findCase_eq k st suites]

theorem find_group (n k : Str) (st : Stage) : ∀ (gs : List PB.Group), find k (gs.map fun g => (groupName g, groupFn n g st)) =
    (gs.find? fun g => groupName g = k).map fun g => groupFn n g st
  | [] => rfl
  | g :: gs => by
    show (if groupName g = k then _ else find k _) = _
    by_cases h : groupName g = k
    · simp [h]
    · simp [h, find_group n k st gs]

/-- All pairs of a suite and one of its groups -/
def pairs (suites : List PB.Suite) : List (PB.Suite × PB.Group) := (suites.map fun s => s.groups.map fun g => (s, g)).flatten

theorem mem_pairs {suites : List PB.Suite} {s : PB.Suite} {g : PB.Group} (hs : s ∈ suites) (hg : g ∈ s.groups) : (s, g) ∈ pairs suites := by
  simp only [pairs, List.mem_flatten, List.mem_map]
  exact ⟨_, ⟨s, hs, rfl⟩, List.mem_map.2 ⟨g, hg, rfl⟩⟩

theorem inj_of_nodup_map {α β : Type} {f : α → β} : ∀ {l : List α}, (l.map f).Nodup → ∀ {a b : α}, a ∈ l → b ∈ l → f a = f b → a = b
  | [], _, _, _, h, _, _ => absurd h (by simp)
  | c :: l, hn, a, b, ha0, hb0, he => by
    simp only [List.map_cons, List.nodup_cons] at hn
    rcases List.mem_cons.1 ha0 with rfl | ha <;> rcases List.mem_cons.1 hb0 with rfl | hb
    · rfl
    · exact absurd (show f a ∈ l.map f from he ▸ List.mem_map_of_mem hb) hn.1
    · exact absurd (show f b ∈ l.map f from he ▸ List.mem_map_of_mem (by assumption)) hn.1
    · exact inj_of_nodup_map hn.2 ha hb he

theorem module_inj {suites : List PB.Suite} (hL : Linkable suites) {s s' : PB.Suite} {g g' : PB.Group} (hs : s ∈ suites) (hg : g ∈ s.groups)
    (hs' : s' ∈ suites) (hg' : g' ∈ s'.groups) (h : groupModule s.name g = groupModule s'.name g') : s = s' ∧ g = g' := by
  have h2 := (List.nodup_append.1 hL.2).2.1
  have : (suites.map fun s => s.groups.map (groupModule s.name)).flatten = (pairs suites).map fun p => groupModule p.1.name p.2 := by
    simp [pairs, List.map_flatten, Function.comp_def]
  rw [this] at h2
  have := inj_of_nodup_map h2 (mem_pairs hs hg) (mem_pairs hs' hg') h
  exact ⟨congrArg Prod.fst this, congrArg Prod.snd this⟩

theorem name_inj {suites : List PB.Suite} (hL : Linkable suites) {s s' : PB.Suite} (hs : s ∈ suites) (hs' : s' ∈ suites)
    (h : s.name = s'.name) : s = s' := by
  have h2 := (List.nodup_append.1 hL.2).1
  exact inj_of_nodup_map h2 hs hs' (by simp [h])

/-! ## One group -/

theorem callGroup_eq {suites : List PB.Suite} (hL : Linkable suites) (hlo : Loops suites) (has : Str → Stage → Bool) (beh : List Event → Int)
    {s : PB.Suite} (hs : s ∈ suites) {g : PB.Group} (hg : g ∈ s.groups) {st : Stage} (hi : inStage g st = true) (i : Nat) (w : World) :
    (callGroup (program has suites) beh i (groupFn s.name g st) w).1 = (realGroup has beh st (groupModule s.name g) i g w).1 ∧
    (callGroup (program has suites) beh i (groupFn s.name g st) w).2.2 = (realGroup has beh st (groupModule s.name g) i g w).2 := by
  unfold callGroup
  rw [find_groupFn hL has hs hg hi]
  exact execGroup_eq has beh _ i st g w (hlo s hs g hg)

/-- The state of the program is what the host expects -/
def Sim (suites : List PB.Suite) (x : Ideal) (w : World) : Prop :=
  w.trace = x.trace ∧ ∀ s ∈ suites, ∀ g ∈ s.groups, ∀ i, w.flag (groupModule s.name g) i = x.on s.name (groupName g) i

/-- `Proper` for one group -/
def Proper1 (st : Stage) (i : Nat) (s : Str) (g : PB.Group) (x : Ideal) : Prop :=
  (st ≠ .init → st ≠ .final → x.on s (groupName g) i = true) ∧ (st = .final → ∀ j, j ≠ i → x.on s (groupName g) j = false)

theorem sim_set {suites : List PB.Suite} (hL : Linkable suites) {s : PB.Suite} (hs : s ∈ suites) {g : PB.Group} (hg : g ∈ s.groups)
    {x : Ideal} {w : World} (h : Sim suites x w) (i : Nat) (b : Bool) (w' : World) (ht : w'.trace = w.trace)
    (hsame : ∀ j, w'.flag (groupModule s.name g) j = if j = i then b else w.flag (groupModule s.name g) j)
    (hother : ∀ m j, m ≠ groupModule s.name g → w'.flag m j = w.flag m j) : Sim suites (x.set s.name (groupName g) i b) w' := by
  refine ⟨ht.trans h.1, ?_⟩
  intro s' hs' g' hg' j
  simp only [Ideal.set]
  by_cases hm : groupModule s'.name g' = groupModule s.name g
  · obtain ⟨rfl, rfl⟩ := module_inj hL hs' hg' hs hg hm
    rw [hsame j]
    by_cases hj : j = i
    · simp [hj]
    · simp [hj, h.2 s' hs' g' hg' j]
  · rw [hother _ j hm]
    have : ¬ (s'.name = s.name ∧ groupName g' = groupName g ∧ j = i) := by
      rintro ⟨h1, h2, _⟩
      exact hm (by simp [groupModule, h1, h2])
    rw [if_neg this]
    exact h.2 s' hs' g' hg' j

theorem sim_trace {suites : List PB.Suite} {x : Ideal} {w : World} (h : Sim suites x w) (t : List Event) :
    Sim suites { x with trace := t } { w with trace := t } := ⟨rfl, h.2⟩

theorem real_ideal {suites : List PB.Suite} (hL : Linkable suites) (has : Str → Stage → Bool) (beh : List Event → Int)
    {s : PB.Suite} (hs : s ∈ suites) {g : PB.Group} (hg : g ∈ s.groups) (st : Stage) (i : Nat) {x : Ideal} {w : World} (h : Sim suites x w)
    (hp : Proper1 st i s.name g x) :
    (realGroup has beh st (groupModule s.name g) i g w).1 = (idealGroup has beh st i s.name g x).1 ∧
    Sim suites (idealGroup has beh st i s.name g x).2 (realGroup has beh st (groupModule s.name g) i g w).2 := by
  have hf := h.2 s hs g hg
  have ht := h.1
  have hs2 := sim_trace h (attempt beh x.trace (planned has st i g)).2
  cases st
  · have hon := hp.1 (by decide) (by decide)
    simp only [realGroup, idealGroup, hf, hon, if_true, ht]
    exact ⟨trivial, hs2⟩
  · have hon := hp.1 (by decide) (by decide)
    simp only [realGroup, idealGroup, hf, hon, if_true, ht]
    exact ⟨trivial, hs2⟩
  · simp only [realGroup, idealGroup, hf, ht]
    split
    · exact ⟨rfl, h⟩
    · refine ⟨rfl, ?_⟩
      split
      · refine sim_set hL hs hg hs2 i true _ rfl ?_ ?_
        · intro j; by_cases hj : j = i <;> simp [hj]
        · intro m j hm; simp [hm]
      · exact hs2
  · have hon := hp.1 (by decide) (by decide)
    simp only [realGroup, idealGroup, hf, hon, if_true, ht]
    exact ⟨trivial, hs2⟩
  · have hoff := hp.2 rfl
    simp only [realGroup, idealGroup, hf, ht]
    by_cases hon : x.on s.name (groupName g) i = true
    · simp only [hon, if_true, true_or]
      refine ⟨trivial, ?_⟩
      split
      · refine sim_set hL hs hg hs2 i false _ rfl ?_ ?_
        · intro j
          by_cases hj : j = i
          · simp [hj]
          · simp only [if_true, hj, if_false]
            exact ((hf j).trans (hoff j hj)).symm
        · intro m j hm; simp [hm]
      · exact hs2
    · have hon : x.on s.name (groupName g) i = false := by simpa using hon
      by_cases ha : hasArgs has g .final = false
      · obtain ⟨hpl, _⟩ := planned_nil_of_noArgs has .final i g ha
        simp only [hon, ha, or_true, if_true, hpl, attempt_nil, Bool.false_eq_true, if_false]
        refine ⟨trivial, rfl, ?_⟩
        intro s' hs' g' hg' j
        simp only
        split
        · rename_i hm
          obtain ⟨rfl, rfl⟩ := module_inj hL hs' hg' hs hg hm
          by_cases hj : j = i
          · rw [hj, hon]
          · exact (hoff j hj).symm
        · exact h.2 s' hs' g' hg' j
      · have hno : ¬ (x.on s.name (groupName g) i = true ∨ hasArgs has g .final = false) := by simp [hon, ha]
        rw [if_neg hno, if_neg (by simp [hon])]
        exact ⟨rfl, h⟩

/-- A stage of a group changes only whether this group is initialised for this instance, and not in the run stages. -/
theorem ideal_frame (has : Str → Stage → Bool) (beh : List Event → Int) (st : Stage) (i : Nat) (s : Str) (g : PB.Group) (x : Ideal) :
    (∀ s' g' j, j ≠ i → (idealGroup has beh st i s g x).2.on s' g' j = x.on s' g' j) ∧
    (st ≠ .init → st ≠ .final → (idealGroup has beh st i s g x).2.on = x.on) := by
  have hset : ∀ (y : Ideal) b s' g' j, j ≠ i → (y.set s (groupName g) i b).on s' g' j = y.on s' g' j := by
    intro y b s' g' j hj
    simp [Ideal.set, hj]
  constructor
  · intro s' g' j hj
    cases st
    · simp only [idealGroup]; split <;> rfl
    · simp only [idealGroup]; split <;> rfl
    · simp only [idealGroup]; split
      · rfl
      · simp only; split
        · rw [hset _ _ _ _ _ hj]
        · rfl
    · simp only [idealGroup]; split <;> rfl
    · simp only [idealGroup]; split
      · simp only; split
        · rw [hset _ _ _ _ _ hj]
        · rfl
      · rfl
  · intro h1 h2
    cases st
    · simp only [idealGroup]; split <;> rfl
    · simp only [idealGroup]; split <;> rfl
    · exact absurd rfl h1
    · simp only [idealGroup]; split <;> rfl
    · exact absurd rfl h2

theorem suite_ideal {suites : List PB.Suite} (hL : Linkable suites) (hlo : Loops suites) (hog : OnlyGroups suites) (has : Str → Stage → Bool)
    (beh : List Event → Int) {s : PB.Suite} (hs : s ∈ suites) (st : Stage) (i : Nat) : ∀ (gs : List PB.Group), (∀ g ∈ gs, g ∈ s.groups) →
    ∀ {x : Ideal} {w : World}, Sim suites x w → (∀ g ∈ gs, Proper1 st i s.name g x) →
    (callSuite (program has suites) beh i (gs.map fun g => groupFn s.name g st) w).1 = (idealSuite has beh st i s.name gs x).1 ∧
    Sim suites (idealSuite has beh st i s.name gs x).2 (callSuite (program has suites) beh i (gs.map fun g => groupFn s.name g st) w).2
  | [], _, x, w, h, _ => ⟨rfl, h⟩
  | g :: gs, hg, x, w, h, hp => by
    have hgs := hg g (List.mem_cons_self ..)
    have hin : inStage g st = true := by simp [inStage, hog s hs g hgs]
    obtain ⟨c1, c2⟩ := callGroup_eq hL hlo has beh hs hgs hin i w
    obtain ⟨r1, r2⟩ := real_ideal hL has beh hs hgs st i h (hp g (List.mem_cons_self ..))
    simp only [List.map_cons, callSuite, idealSuite, c1, c2, r1]
    split
    · refine suite_ideal hL hlo hog has beh hs st i gs (fun g' hg' => hg g' (List.mem_cons_of_mem _ hg')) r2 ?_
      intro g' hg'
      obtain ⟨p1, p2⟩ := hp g' (List.mem_cons_of_mem _ hg')
      obtain ⟨f1, f2⟩ := ideal_frame has beh st i s.name g x
      refine ⟨fun a b => ?_, fun a j hj => ?_⟩
      · rw [f2 a b]; exact p1 a b
      · rw [f1 _ _ _ hj]; exact p2 a j hj
    · exact ⟨rfl, r2⟩

theorem api_ideal {suites : List PB.Suite} (hL : Linkable suites) (hlo : Loops suites) (hog : OnlyGroups suites) (has : Str → Stage → Bool)
    (beh : List Event → Int) (c : Call) {x : Ideal} {w : World} (h : Sim suites x w) (hp : Proper suites c x) :
    (callApi (program has suites) beh c w).1 = (idealApi has beh suites c x).1 ∧
    Sim suites (idealApi has beh suites c x).2 (callApi (program has suites) beh c w).2 := by
  unfold callApi idealApi
  have hsw : (program has suites).api c.stage = apiSwitch suites c.stage := rfl
  rw [hsw, findCase_eq]
  cases hf : suites.find? (fun s => s.name = trim c.suite) with
  | none => exact ⟨rfl, h⟩
  | some s =>
    have hs : s ∈ suites := List.mem_of_find?_eq_some hf
    have hn : s.name = trim c.suite := by simpa using List.find?_some hf
    have hfilt : (s.groups.filter fun g => inStage g c.stage) = s.groups :=
      List.filter_eq_self.2 fun g hg => by simp [inStage, hog s hs g hg]
    simp only [Option.map_some, hfilt]
    cases hg : c.group with
    | none =>
      simp only [find_suiteFn hL has hs, hfilt]
      exact suite_ideal hL hlo hog has beh hs c.stage c.inst s.groups (fun _ h => h) h fun g hgm => hp s hs g ⟨hn, hgm, Or.inl hg⟩
    | some n =>
      simp only [find_group]
      cases hfg : s.groups.find? (fun g => groupName g = trim n) with
      | none => exact ⟨rfl, h⟩
      | some g =>
        have hgm : g ∈ s.groups := List.mem_of_find?_eq_some hfg
        have hgn : groupName g = trim n := by simpa using List.find?_some hfg
        have hin : inStage g c.stage = true := by simp [inStage, hog s hs g hgm]
        simp only [Option.map_some]
        obtain ⟨c1, c2⟩ := callGroup_eq hL hlo has beh hs hgm hin c.inst w
        rw [c1, c2]
        exact real_ideal hL has beh hs hgm c.stage c.inst h (hp s hs g ⟨hn, hgm, Or.inr ⟨n, hg, hgn.symm⟩⟩)

theorem many_ideal {suites : List PB.Suite} (hL : Linkable suites) (hlo : Loops suites) (hog : OnlyGroups suites) (has : Str → Stage → Bool)
    (beh : List Event → Int) : ∀ (cs : List Call) {x : Ideal} {w : World}, Sim suites x w → ProperAll has beh suites cs x →
    (callMany (program has suites) beh cs w).1 = (idealMany has beh suites cs x).1 ∧
    Sim suites (idealMany has beh suites cs x).2 (callMany (program has suites) beh cs w).2
  | [], _, _, h, _ => ⟨rfl, h⟩
  | c :: cs, x, w, h, hp => by
    obtain ⟨a1, a2⟩ := api_ideal hL hlo hog has beh c h hp.1
    obtain ⟨b1, b2⟩ := many_ideal hL hlo hog has beh cs a2 hp.2
    exact ⟨by simp [callMany, idealMany, a1, b1], b2⟩

/-- **C72**: when the names of the caps differ, every subcycle is done at least once, and no `init` or `finalize` elements are used, a
host that keeps the order of the stages gets exactly the calls that the suites say, with the error codes. -/
theorem C72_ideal_partial {suites : List PB.Suite} (hL : Linkable suites) (hlo : Loops suites) (hog : OnlyGroups suites)
    (has : List Char → Stage → Bool) (beh : List Event → Int) (cs : List Call) (hp : ProperAll has beh suites cs fresh) :
    (callMany (program has suites) beh cs start).1 = (idealMany has beh suites cs fresh).1 ∧
    (callMany (program has suites) beh cs start).2.trace = (idealMany has beh suites cs fresh).2.trace := by
  obtain ⟨h1, h2⟩ := many_ideal hL hlo hog has beh cs (x := fresh) (w := start) ⟨rfl, fun _ _ _ _ _ => rfl⟩ hp
  exact ⟨h1, h2.1⟩

/-! ## Every history -/

theorem inStage_iff (g : PB.Group) (st : Stage) : inStage g st = true ↔ HasStage g st := by
  cases hg : g.tag <;> simp [inStage, HasStage, hg]

theorem real_cases (has : Str → Stage → Bool) (beh : List Event → Int) (st : Stage) (m : Str) (i : Nat) (g : PB.Group) (w : World) :
    realGroup has beh st m i g w = (0, w) ∨
    ((realGroup has beh st m i g w).1 = (attempt beh w.trace (planned has st i g)).1 ∧
     (realGroup has beh st m i g w).2.trace = (attempt beh w.trace (planned has st i g)).2 ∧
     (st ≠ .init → planned has st i g ≠ [] → w.flag m i = true)) := by
  cases st
  · by_cases h : w.flag m i = true
    · right; simp [realGroup, h]
    · left; simp [realGroup, h]
  · by_cases h : w.flag m i = true
    · right; simp [realGroup, h]
    · left; simp [realGroup, h]
  · by_cases h : w.flag m i = true
    · left; simp [realGroup, h]
    · right
      simp only [realGroup, h, Bool.false_eq_true, if_false, true_and, ne_eq, not_true_eq_false, false_implies, and_true]
      split <;> rfl
  · by_cases h : w.flag m i = true
    · right; simp [realGroup, h]
    · left; simp [realGroup, h]
  · by_cases h : w.flag m i = true
    · right
      simp only [realGroup, h, true_or, if_true, implies_true, and_true, true_and]
      split <;> rfl
    · by_cases ha : hasArgs has g .final = false
      · right
        obtain ⟨hp, _⟩ := planned_nil_of_noArgs has .final i g ha
        simp [realGroup, ha, hp, attempt_nil]
      · left
        simp [realGroup, h, ha]

theorem real_flag (has : Str → Stage → Bool) (beh : List Event → Int) (st : Stage) (m : Str) (i : Nat) (g : PB.Group) (w : World)
    {m' : Str} {j : Nat} (h : (realGroup has beh st m i g w).2.flag m' j = true) : w.flag m' j = true ∨ (st = .init ∧ m' = m ∧ j = i) := by
  cases st
  · simp only [realGroup] at h; split at h <;> exact Or.inl h
  · simp only [realGroup] at h; split at h <;> exact Or.inl h
  · simp only [realGroup] at h
    split at h
    · exact Or.inl h
    · simp only at h
      split at h
      · simp only at h
        split at h
        · rename_i hh; exact Or.inr ⟨rfl, hh⟩
        · exact Or.inl h
      · exact Or.inl h
  · simp only [realGroup] at h; split at h <;> exact Or.inl h
  · simp only [realGroup] at h
    split at h
    · simp only at h
      split at h
      · simp only at h
        split at h
        · cases h
        · exact Or.inl h
      · exact Or.inl h
    · exact Or.inl h

/-- What is known about a call of some groups -/
structure Done (suites : List PB.Suite) (has : Str → Stage → Bool) (beh : List Event → Int) (s : PB.Suite) (st : Stage) (i : Nat)
    (all : List PB.Group) (w : World) (r : Int × World) : Prop where
  calls : ∃ gs : List PB.Group, gs.Sublist all ∧ (r.1, r.2.trace) = attempt beh w.trace (gs.map (planned has st i)).flatten ∧
    (st ≠ .init → ∀ g ∈ gs, planned has st i g ≠ [] → w.flag (groupModule s.name g) i = true)
  flags : ∀ m j, r.2.flag m j = true → w.flag m j = true ∨ (st = .init ∧ j = i ∧ ∃ g ∈ all, m = groupModule s.name g)

theorem done_group {suites : List PB.Suite} (hL : Linkable suites) (hlo : Loops suites) (has : Str → Stage → Bool) (beh : List Event → Int)
    {s : PB.Suite} (hs : s ∈ suites) {g : PB.Group} (hg : g ∈ s.groups) {st : Stage} (hi : inStage g st = true) (i : Nat) (w : World) :
    Done suites has beh s st i [g] w ((callGroup (program has suites) beh i (groupFn s.name g st) w).1,
      (callGroup (program has suites) beh i (groupFn s.name g st) w).2.2) := by
  obtain ⟨c1, c2⟩ := callGroup_eq hL hlo has beh hs hg hi i w
  rw [c1, c2]
  constructor
  · rcases real_cases has beh st (groupModule s.name g) i g w with h | ⟨h1, h2, h3⟩
    · exact ⟨[], List.nil_sublist _, by rw [h]; rfl, fun _ g hg => absurd hg (by simp)⟩
    · refine ⟨[g], List.Sublist.refl _, ?_, ?_⟩
      · simp [h1, h2]
      · intro hst g' hg' hp
        rw [List.mem_singleton.1 hg'] at hp ⊢
        exact h3 hst hp
  · intro m j h
    rcases real_flag has beh st (groupModule s.name g) i g w h with h | ⟨h1, h2, h3⟩
    · exact Or.inl h
    · exact Or.inr ⟨h1, h3, g, by simp, h2⟩

/-- Outside of `init` no flag is set, so that what is initialised later was initialised before. -/
theorem done_suite {suites : List PB.Suite} (hL : Linkable suites) (hlo : Loops suites) (has : Str → Stage → Bool) (beh : List Event → Int)
    {s : PB.Suite} (hs : s ∈ suites) (st : Stage) (i : Nat) : ∀ (gs : List PB.Group), (∀ g ∈ gs, g ∈ s.groups ∧ inStage g st = true) →
    ∀ (w : World), Done suites has beh s st i gs w (callSuite (program has suites) beh i (gs.map fun g => groupFn s.name g st) w)
  | [], _, w => ⟨⟨[], List.Sublist.refl _, rfl, fun _ g hg => absurd hg (by simp)⟩, fun _ _ h => Or.inl h⟩
  | g :: gs, hg, w => by
    obtain ⟨hgs, hin⟩ := hg g (List.mem_cons_self ..)
    have hd := done_group hL hlo has beh hs hgs hin i w
    simp only [List.map_cons, callSuite]
    generalize callGroup (program has suites) beh i (groupFn s.name g st) w = r at hd ⊢
    obtain ⟨⟨l, hl1, hl2, hl3⟩, hfl⟩ := hd
    simp only at hl2 hfl
    split
    · rename_i h0
      obtain ⟨⟨l', hm1, hm2, hm3⟩, hfl'⟩ := done_suite hL hlo has beh hs st i gs (fun g' hg' => hg g' (List.mem_cons_of_mem _ hg')) r.2.2
      constructor
      · refine ⟨l ++ l', ?_, ?_, ?_⟩
        · have := List.Sublist.append hl1 hm1; simpa using this
        · rw [List.map_append, List.flatten_append, attempt_append, ← hl2]
          simp only [h0, if_true]
          exact hm2
        · intro hst g' hg' hp
          rcases List.mem_append.1 hg' with h | h
          · exact hl3 hst g' h hp
          · rcases hfl _ _ (hm3 hst g' h hp) with h | ⟨h, _⟩
            · exact h
            · exact absurd h hst
      · intro m j h
        rcases hfl' m j h with h | ⟨h1, h2, g', h3, h4⟩
        · rcases hfl m j h with h | ⟨h1, h2, g', h3, h4⟩
          · exact Or.inl h
          · exact Or.inr ⟨h1, h2, g', by rw [List.mem_singleton.1 h3]; exact List.mem_cons_self .., h4⟩
        · exact Or.inr ⟨h1, h2, g', List.mem_cons_of_mem _ h3, h4⟩
    · rename_i h0
      constructor
      · exact ⟨l, hl1.trans (by simp), hl2, hl3⟩
      · intro m j h
        rcases hfl m j h with h | ⟨h1, h2, g', h3, h4⟩
        · exact Or.inl h
        · exact Or.inr ⟨h1, h2, g', by rw [List.mem_singleton.1 h3]; exact List.mem_cons_self .., h4⟩

theorem api_cases {suites : List PB.Suite} (hL : Linkable suites) (hlo : Loops suites) (has : Str → Stage → Bool)
    (beh : List Event → Int) (c : Call) (w : World) :
    (callApi (program has suites) beh c w = (1, w) ∧ ¬ ∃ s ∈ suites, ∃ g, Concerns c s g ∧ HasStage g c.stage) ∨
    ∃ s ∈ suites, ∃ all : List PB.Group, all.Sublist s.groups ∧ (∀ g, g ∈ all ↔ Concerns c s g ∧ HasStage g c.stage) ∧
      Done suites has beh s c.stage c.inst all w (callApi (program has suites) beh c w) := by
  unfold callApi
  have hsw : (program has suites).api c.stage = apiSwitch suites c.stage := rfl
  rw [hsw, findCase_eq]
  cases hf : suites.find? (fun s => s.name = trim c.suite) with
  | none =>
    left
    refine ⟨rfl, ?_⟩
    rintro ⟨s, hs, g, hc, _⟩
    have := List.find?_eq_none.1 hf s hs
    simp [hc.1] at this
  | some s =>
    have hs : s ∈ suites := List.mem_of_find?_eq_some hf
    have hn : s.name = trim c.suite := by simpa using List.find?_some hf
    simp only [Option.map_some]
    cases hg : c.group with
    | none =>
      right
      simp only [find_suiteFn hL has hs]
      refine ⟨s, hs, s.groups.filter (fun g => inStage g c.stage), List.filter_sublist, ?_, ?_⟩
      · intro g
        simp [List.mem_filter, Concerns, hn, hg, inStage_iff]
      · exact done_suite hL hlo has beh hs c.stage c.inst _ (fun g h => List.mem_filter.1 h) w
    | some n =>
      simp only [find_group]
      cases hfg : (s.groups.filter fun g => inStage g c.stage).find? (fun g => groupName g = trim n) with
      | none =>
        left
        refine ⟨rfl, ?_⟩
        rintro ⟨s', hs', g, hc, hst⟩
        have : s' = s := name_inj hL hs' hs (hc.1.trans hn.symm)
        subst this
        have := List.find?_eq_none.1 hfg g (List.mem_filter.2 ⟨hc.2.1, (inStage_iff g c.stage).2 hst⟩)
        rcases hc.2.2 with h | ⟨n', h1, h2⟩
        · rw [hg] at h; cases h
        · rw [hg] at h1; cases h1
          simp [h2] at this
      | some g =>
        right
        have hgm := List.mem_filter.1 (List.mem_of_find?_eq_some hfg)
        have hgn : groupName g = trim n := by simpa using List.find?_some hfg
        refine ⟨s, hs, [g], List.singleton_sublist.2 hgm.1, ?_, ?_⟩
        · intro g'
          constructor
          · intro h
            rw [List.mem_singleton.1 h]
            exact ⟨⟨hn, hgm.1, Or.inr ⟨n, hg, hgn.symm⟩⟩, (inStage_iff g c.stage).1 hgm.2⟩
          · rintro ⟨⟨_, hm, hc⟩, _⟩
            rcases hc with h | ⟨n', h1, h2⟩
            · rw [hg] at h; cases h
            · rw [hg] at h1; cases h1
              have : g' = g := (module_inj hL hs hm hs hgm.1 (by simp [groupModule, ← h2, hgn])).2
              simp [this]
        · exact done_group hL hlo has beh hs hgm.1 hgm.2 c.inst w

/-- What is initialised was initialised by a call -/
def Earlier (suites : List PB.Suite) (before : List Call) (w : World) : Prop :=
  ∀ s ∈ suites, ∀ g ∈ s.groups, ∀ i, w.flag (groupModule s.name g) i = true → ∃ d ∈ before, Initialises s.name (groupName g) i d

theorem earlier_api {suites : List PB.Suite} (hL : Linkable suites) (hlo : Loops suites) (has : Str → Stage → Bool)
    (beh : List Event → Int) (before : List Call) (c : Call) (w : World) (h : Earlier suites before w) :
    Earlier suites (before ++ [c]) (callApi (program has suites) beh c w).2 := by
  intro s hs g hg i hf
  have old : w.flag (groupModule s.name g) i = true → ∃ d ∈ before ++ [c], Initialises s.name (groupName g) i d := fun hf => by
    obtain ⟨d, hd, hi⟩ := h s hs g hg i hf
    exact ⟨d, List.mem_append_left _ hd, hi⟩
  rcases api_cases hL hlo has beh c w with ⟨he, _⟩ | ⟨s', hs', all, hsub, hall, hd⟩
  · rw [he] at hf; exact old hf
  · rcases hd.flags _ _ hf with hf | ⟨h1, h2, g', h3, h4⟩
    · exact old hf
    · have hc := (hall g').1 h3
      obtain ⟨rfl, rfl⟩ := module_inj hL hs hg hs' hc.1.2.1 h4
      refine ⟨c, by simp, h1, hc.1.1.symm, h2.symm, hc.1.2.2⟩

theorem earlier_many {suites : List PB.Suite} (hL : Linkable suites) (hlo : Loops suites) (has : Str → Stage → Bool)
    (beh : List Event → Int) : ∀ (cs before : List Call) (w : World), Earlier suites before w →
    Earlier suites (before ++ cs) (callMany (program has suites) beh cs w).2
  | [], before, w, h => by simpa [callMany] using h
  | c :: cs, before, w, h => by
    have := earlier_many hL hlo has beh cs (before ++ [c]) _ (earlier_api hL hlo has beh before c w h)
    simpa [callMany] using this

/-- **C72**: in every history, also when the host does not keep the order: a call for an unknown suite or group returns the error code 1
and calls nothing; any other call does the stage of some of the groups that it concerns, in their order, until the first error, which
it returns; and a routine of another stage than `init` is called only when a call before has initialised its group for this instance. -/
theorem C72_calls {suites : List PB.Suite} (hL : Linkable suites) (hlo : Loops suites) (has : List Char → Stage → Bool)
    (beh : List Event → Int) (before : List Call) (c : Call) :
    ((callApi (program has suites) beh c (callMany (program has suites) beh before start).2) = (1, (callMany (program has suites) beh before start).2) ∧
      ¬ ∃ s ∈ suites, ∃ g, Concerns c s g ∧ HasStage g c.stage) ∨
    ∃ s ∈ suites, ∃ gs : List PB.Group, gs.Sublist s.groups ∧ (∀ g ∈ gs, Concerns c s g ∧ HasStage g c.stage) ∧
      ((callApi (program has suites) beh c (callMany (program has suites) beh before start).2).1,
        (callApi (program has suites) beh c (callMany (program has suites) beh before start).2).2.trace) =
        attempt beh (callMany (program has suites) beh before start).2.trace (gs.map (planned has c.stage c.inst)).flatten ∧
      (c.stage ≠ .init → ∀ g ∈ gs, planned has c.stage c.inst g ≠ [] → ∃ d ∈ before, Initialises s.name (groupName g) c.inst d) := by
  have he := earlier_many hL hlo has beh before [] start (fun _ _ _ _ _ h => by cases h)
  rcases api_cases hL hlo has beh c (callMany (program has suites) beh before start).2 with h | ⟨s, hs, all, hsub, hall, ⟨gs, h1, h2, h3⟩, _⟩
  · exact Or.inl h
  · refine Or.inr ⟨s, hs, gs, h1.trans hsub, fun g hg => (hall g).1 (h1.subset hg), h2, ?_⟩
    intro hst g hg hp
    exact he s hs g (hsub.subset (h1.subset hg)) c.inst (h3 hst g hg hp)

/-- A history of calls is one call after another. -/
theorem C72_history (p : Program) (beh : List Event → Int) : ∀ (before after : List Call) (w : World),
    (callMany p beh (before ++ after) w).1 = (callMany p beh before w).1 ++ (callMany p beh after (callMany p beh before w).2).1 ∧
    (callMany p beh (before ++ after) w).2 = (callMany p beh after (callMany p beh before w).2).2
  | [], after, w => ⟨rfl, rfl⟩
  | c :: before, after, w => by
    obtain ⟨h1, h2⟩ := C72_history p beh before after (callApi p beh c w).2
    exact ⟨by simp [callMany, h1], by simp [callMany, h2]⟩

/-! ## Violations and examples -/

/-- A suite with one group, its scheme in a subcycle of two -/
def exSuite : PB.Suite := ⟨"s".toList, ["a".toList], [], [⟨some "g".toList, .group, [(2, ["a".toList])]⟩], []⟩
/-- All routines exist -/
def exHas : Str → Stage → Bool := fun _ _ => true
/-- No errors -/
def exBeh : List Event → Int := fun _ => 0

theorem ex_hyps : Linkable [exSuite] ∧ Loops [exSuite] ∧ OnlyGroups [exSuite] := by
  refine ⟨⟨by decide +kernel, by decide +kernel⟩, ?_, ?_⟩
  · intro s hs g hg sub hsub
    obtain rfl := List.mem_singleton.1 hs
    obtain rfl := List.mem_singleton.1 hg
    obtain rfl := List.mem_singleton.1 hsub
    decide
  · intro s hs g hg
    obtain rfl := List.mem_singleton.1 hs
    obtain rfl := List.mem_singleton.1 hg
    rfl

theorem ex_frame (x : Ideal) (s' g' : Str) (j : Nat) (hj : j ≠ 1) :
    (idealApi exHas exBeh [exSuite] ⟨.init, "s".toList, none, 1⟩ x).2.on s' g' j = x.on s' g' j ∧
    (idealApi exHas exBeh [exSuite] ⟨.run, "s  ".toList, some "g ".toList, 1⟩ x).2.on s' g' j = x.on s' g' j := by
  constructor
  · have h : idealApi exHas exBeh [exSuite] ⟨.init, "s".toList, none, 1⟩ x =
        idealSuite exHas exBeh .init 1 exSuite.name exSuite.groups x := rfl
    rw [h]
    show (if _ then _ else _ : Int × Ideal).2.on s' g' j = _
    have hf := (ideal_frame exHas exBeh .init 1 exSuite.name ⟨some "g".toList, .group, [(2, ["a".toList])]⟩ x).1 s' g' j hj
    split
    · exact hf
    · exact hf
  · have h : idealApi exHas exBeh [exSuite] ⟨.run, "s  ".toList, some "g ".toList, 1⟩ x =
        idealGroup exHas exBeh .run 1 exSuite.name ⟨some "g".toList, .group, [(2, ["a".toList])]⟩ x := rfl
    rw [h]
    exact (ideal_frame _ _ _ _ _ _ _).1 _ _ _ hj

/-- A proper history: init, run (the group by name, with trailing blanks), finalize; each routine is called once, the run routine twice. -/
theorem ex_proper :
    ProperAll exHas exBeh [exSuite] [⟨.init, "s".toList, none, 1⟩, ⟨.run, "s  ".toList, some "g ".toList, 1⟩, ⟨.final, "s".toList, none, 1⟩] fresh ∧
    (callMany (program exHas [exSuite]) exBeh
      [⟨.init, "s".toList, none, 1⟩, ⟨.run, "s  ".toList, some "g ".toList, 1⟩, ⟨.final, "s".toList, none, 1⟩] start).2.trace =
      [⟨"a_init".toList, 1, 1, 1⟩, ⟨"a_run".toList, 1, 1, 2⟩, ⟨"a_run".toList, 1, 2, 2⟩, ⟨"a_finalize".toList, 1, 1, 1⟩] := by
  refine ⟨⟨?_, ?_, ?_, trivial⟩, by decide +kernel⟩ <;> intro s hs g hg <;> obtain rfl := List.mem_singleton.1 hs <;>
    obtain rfl := List.mem_singleton.1 hg.2.1
  · exact ⟨fun h => absurd rfl h, fun h => by cases h⟩
  · exact ⟨fun _ _ => by decide +kernel, fun h => by cases h⟩
  · refine ⟨fun _ h => absurd rfl h, fun _ j hj => ?_⟩
    rw [(ex_frame _ _ _ j hj).2, (ex_frame _ _ _ j hj).1]
    rfl

/-- What a host may rely on: the error code of a call that the rules of the stages forbid -/
def exRunFirst : List Call := [⟨.run, "s".toList, none, 1⟩]

/-- Running a group that is not initialised should be an error (and the cap says so in its message), but the error code that the host
gets is 0: the cap sets the error code of the host, not its result, and the API then overwrites the error code with the result. -/
theorem C72_order_violated : (idealMany exHas exBeh [exSuite] exRunFirst fresh).1 = [1] ∧
    (callMany (program exHas [exSuite]) exBeh exRunFirst start).1 = [0] ∧ (callMany (program exHas [exSuite]) exBeh exRunFirst start).2.trace = [] := by
  refine ⟨by decide +kernel, by decide +kernel, by decide +kernel⟩

/-- Two instances; the first is finalised, then the second is run -/
def exTwo : List Call := [⟨.init, "s".toList, none, 1⟩, ⟨.init, "s".toList, none, 2⟩, ⟨.final, "s".toList, none, 1⟩, ⟨.run, "s".toList, none, 2⟩]

/-- Finalising one instance makes all other instances uninitialised: the second instance is no longer run, without an error. -/
theorem C72_instances_violated : (idealMany exHas exBeh [exSuite] exTwo fresh).2.trace.length = 5 ∧
    (callMany (program exHas [exSuite]) exBeh exTwo start).1 = [0, 0, 0, 0] ∧
    (callMany (program exHas [exSuite]) exBeh exTwo start).2.trace =
      [⟨"a_init".toList, 1, 1, 1⟩, ⟨"a_init".toList, 2, 1, 1⟩, ⟨"a_finalize".toList, 1, 1, 1⟩] := by
  refine ⟨by decide +kernel, by decide +kernel, by decide +kernel⟩

/-- A subcycle that is done zero times -/
def exZero : PB.Suite := ⟨"s".toList, ["a".toList], [], [⟨some "g".toList, .group, [(0, ["a".toList])]⟩], []⟩

/-- A subcycle with `loop="0"` is done once. -/
theorem C72_loop_violated : Linkable [exZero] ∧ OnlyGroups [exZero] ∧
    (callMany (program exHas [exZero]) exBeh [⟨.init, "s".toList, none, 1⟩, ⟨.run, "s".toList, none, 1⟩] start).2.trace =
      [⟨"a_init".toList, 1, 1, 1⟩, ⟨"a_run".toList, 1, 1, 0⟩] ∧
    planned exHas .run 1 ⟨some "g".toList, .group, [(0, ["a".toList])]⟩ = [] := by
  refine ⟨⟨by decide +kernel, by decide +kernel⟩, ?_, by decide +kernel, by decide +kernel⟩
  intro s hs g hg
  obtain rfl := List.mem_singleton.1 hs
  obtain rfl := List.mem_singleton.1 hg
  rfl

/-- A suite with elements `init` and `finalize` around a group -/
def exElems : PB.Suite := ⟨"s".toList, ["a".toList, "b".toList, "c".toList], [],
  [⟨some "init".toList, .init, [(1, ["b".toList])]⟩, ⟨some "g".toList, .group, [(1, ["a".toList])]⟩,
   ⟨some "finalize".toList, .finalize, [(1, ["c".toList])]⟩], []⟩

/-- The scheme of the element `finalize` is never called, since its cap is never initialised; and the scheme of the element `init` is
called only once, also when the suite is finalised and initialised again, since its cap is never finalised. -/
theorem C72_elements_violated : Linkable [exElems] ∧ Loops [exElems] ∧
    (callMany (program exHas [exElems]) exBeh
      [⟨.init, "s".toList, none, 1⟩, ⟨.final, "s".toList, none, 1⟩, ⟨.init, "s".toList, none, 1⟩, ⟨.final, "s".toList, none, 1⟩] start).2.trace.map (·.routine) =
      ["b_init".toList, "a_init".toList, "a_finalize".toList, "a_init".toList, "a_finalize".toList] := by
  refine ⟨⟨by decide +kernel, by decide +kernel⟩, ?_, by decide +kernel⟩
  intro s hs g hg sub hsub
  obtain rfl := List.mem_singleton.1 hs
  simp only [exElems, List.mem_cons, List.not_mem_nil, or_false] at hg
  rcases hg with rfl | rfl | rfl <;> obtain rfl := List.mem_singleton.1 hsub <;> decide

/-- More generally, in no history is a routine of a `finalize` element called: it needs an earlier call of the stage `init` for the
element, and there is no function for it. -/
theorem finalize_never_flag {suites : List PB.Suite} (hL : Linkable suites) (hlo : Loops suites) (has : Str → Stage → Bool)
    (beh : List Event → Int) {s : PB.Suite} (hs : s ∈ suites) {g : PB.Group} (hg : g ∈ s.groups) (ht : g.tag = .finalize) :
    ∀ (cs : List Call) (w : World), (∀ i, w.flag (groupModule s.name g) i = false) →
    ∀ i, (callMany (program has suites) beh cs w).2.flag (groupModule s.name g) i = false
  | [], _, h, i => h i
  | c :: cs, w, h, i => by
    refine finalize_never_flag hL hlo has beh hs hg ht cs (callApi (program has suites) beh c w).2 ?_ i
    intro j
    cases hf : (callApi (program has suites) beh c w).2.flag (groupModule s.name g) j with
    | false => rfl
    | true =>
      rcases api_cases hL hlo has beh c w with ⟨he, _⟩ | ⟨s', hs', all, hsub, hall, hd⟩
      · rw [he] at hf; rw [h j] at hf; cases hf
      · rcases hd.flags _ _ hf with hf | ⟨h1, h2, g', h3, h4⟩
        · rw [h j] at hf; cases hf
        · have hc := (hall g').1 h3
          obtain ⟨rfl, rfl⟩ := module_inj hL hs hg hs' hc.1.2.1 h4
          have := hc.2.2 ht
          rw [h1] at this; cases this

/-- After every history: finalising a `finalize` element does nothing. -/
theorem C72_finalize_element_violated {suites : List PB.Suite} (hL : Linkable suites) (hlo : Loops suites) (has : List Char → Stage → Bool)
    (beh : List Event → Int) {s : PB.Suite} (hs : s ∈ suites) {g : PB.Group} (hg : g ∈ s.groups) (ht : g.tag = .finalize)
    (before : List Call) (c : Call) (hc : c.stage = .final) (hcs : trim c.suite = s.name) {n : List Char} (hcg : c.group = some n)
    (hn : trim n = groupName g) (hp : planned has .final c.inst g ≠ []) :
    (callApi (program has suites) beh c (callMany (program has suites) beh before start).2).1 = 0 ∧
    (callApi (program has suites) beh c (callMany (program has suites) beh before start).2).2.trace =
      (callMany (program has suites) beh before start).2.trace := by
  have hfl := finalize_never_flag hL hlo has beh hs hg ht before start (fun _ => rfl) c.inst
  rcases api_cases hL hlo has beh c (callMany (program has suites) beh before start).2 with ⟨_, hno⟩ | ⟨s', hs', all, hsub, hall, ⟨gs, h1, h2, h3⟩, _⟩
  · refine absurd ⟨s, hs, g, ⟨hcs.symm, hg, Or.inr ⟨n, hcg, hn⟩⟩, ?_, ?_⟩ hno
    · intro h; rw [ht] at h; cases h
    · exact fun _ => hc
  · have hgs : gs = [] := by
      cases gs with
      | nil => rfl
      | cons g' l =>
        have hm := (hall g').1 (h1.subset (List.mem_cons_self ..))
        have hss : s' = s := name_inj hL hs' hs (hm.1.1.trans hcs)
        subst hss
        have hgg : g' = g := by
          rcases hm.1.2.2 with h | ⟨n', h1, h2⟩
          · rw [hcg] at h; cases h
          · rw [hcg] at h1; cases h1
            exact (module_inj hL hs hm.1.2.1 hs hg (by simp [groupModule, ← h2, hn])).2
        subst hgg
        have := h3 (by rw [hc]; decide) g' (List.mem_cons_self ..) (by rw [hc]; exact hp)
        rw [hfl] at this; cases this
    rw [hgs] at h2
    exact ⟨congrArg Prod.fst h2, congrArg Prod.snd h2⟩

/-- A suite with only an `init` element gives an API that does not compile: its switch over groups begins with `else`. -/
theorem C72_switch_violated : Linkable [(⟨"s".toList, ["b".toList], [], [⟨some "init".toList, .init, [(1, ["b".toList])]⟩], []⟩ : PB.Suite)] ∧
    switchOk [⟨"s".toList, ["b".toList], [], [⟨some "init".toList, .init, [(1, ["b".toList])]⟩], []⟩] = false := by
  refine ⟨⟨by decide +kernel, by decide +kernel⟩, by decide +kernel⟩

/-- The switches are well formed when every suite has a group. -/
theorem C72_switch (suites : List PB.Suite) (h : ∀ s ∈ suites, ∃ g ∈ s.groups, g.tag = .group) : switchOk suites = true := by
  simp only [switchOk, List.all_eq_true, apiSwitch, List.mem_map]
  rintro st _ c ⟨s, hs, rfl⟩
  obtain ⟨g, hg, ht⟩ := h s hs
  have hm : g ∈ s.groups.filter fun g => inStage g st := List.mem_filter.2 ⟨hg, by simp [inStage, ht]⟩
  cases hl : s.groups.filter fun g => inStage g st with
  | nil => rw [hl] at hm; cases hm
  | cons a l => simp

end Ccpp.SA
