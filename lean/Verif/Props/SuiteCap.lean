import Verif.Lemmas.SuiteCap
/-! # C06–C09: histories of calls to a generated suite cap -/
namespace Ccpp.Cap

/-- The call's code was produced by the generator from the parts `items`. -/
def Generated (c : Call) (items : Items) : Prop := items.write = .ok c.parts

/-- The conditions under which the call may proceed: the suite is in the state the phase
requires and (except in the run phase) the thread check passes. -/
def Admitted (s : St) (c : Call) : Prop :=
  s.css = (requires c.phase).toList ∧ (c.phase = .run ∨ c.thread ≤ 1)

theorem exec_groupBody_reject (beh : Beh) (vars : List SVar) (s : St) (c : Call)
    (h : ¬ Admitted s c) :
    callGroup beh vars s c = { s with err := 1, ret := true, thread := c.thread } := by
  unfold callGroup groupBody
  simp only [exec, Bool.false_eq_true, if_false, initialState_eq]
  by_cases ht : c.phase = .run
  · simp only [ht, if_true, exec, Bool.false_eq_true, if_false]
    have : s.css ≠ (requires .run).toList := by
      intro he; exact h ⟨by rw [ht]; exact he, Or.inl ht⟩
    simp [this]
  · simp only [ht, if_false, exec]
    by_cases hth : c.thread > 1
    · simp [hth]
    · simp only [hth, if_false, Bool.false_eq_true]
      have : s.css ≠ (requires c.phase).toList := by
        intro he; exact h ⟨he, Or.inr (by omega)⟩
      simp [this]

/-- **C06**.  A call in the wrong suite state (or, outside the run phase, from a thread the
check refuses) returns error code 1, runs no scheme, and changes neither the suite
state nor the allocation of any suite variable. -/
theorem C06_reject (beh : Beh) (vars : List SVar) (s : St) (c : Call) (h : ¬ Admitted s c) :
    let s' := callGroup beh vars s c
    s'.err = 1 ∧ s'.trace = s.trace ∧ s'.css = s.css ∧ s'.alloc = s.alloc ∧
      s'.fault = s.fault := by
  simp [exec_groupBody_reject beh vars s c h]

example : ¬ Admitted St.init ⟨.run, .skip, 0⟩ := by unfold Admitted; decide

theorem exec_setState (beh : Beh) (p : Phase) (s : St)
    (hs : s.css = (requires p).toList) :
    exec beh (setStateStmt p) s = { s with css := (leadsTo p).toList } := by
  unfold setStateStmt
  split
  · next h =>
    rw [initialState_eq, finalState_eq] at h
    cases s
    simp_all [exec]
  · simp [exec, finalState_eq]

/-- Everything a call that is let through does. -/
theorem exec_groupBody_accept (beh : Beh) (vars : List SVar) (s : St) (c : Call) (items : Items)
    (hg : Generated c items) (h : Admitted s c) :
    let u := untilError beh s.trace items.order
    let s' := callGroup beh vars s c
    s'.trace = u.1 ∧ s'.err = u.2.1 ∧
    s'.css = (if u.2.2 then s.css else (leadsTo c.phase).toList) ∧
    s'.alloc = (fun w =>
      (u.2.2 || !(deallocates c.phase && decide (w ∈ managed vars c.phase))) &&
      (s.alloc w || (allocates c.phase && decide (w ∈ managed vars c.phase)))) ∧
    (s.fault = false → (managed vars c.phase).Nodup →
      (allocates c.phase = true → ∀ v ∈ managed vars c.phase, s.alloc v = false) →
      (deallocates c.phase = true → ∀ v ∈ managed vars c.phase, s.alloc v = true) →
      s'.fault = false) := by
  intro u s'
  -- state after the prologue
  have hpre : ∃ s1 : St, s' = exec beh (.seq c.parts (.seq
        (if deallocates c.phase then deallocStmts (managed vars c.phase) else .skip)
        (setStateStmt c.phase))) s1 ∧
      s1.err = 0 ∧ s1.css = s.css ∧ s1.trace = s.trace ∧ s1.ret = false ∧
      s1.alloc = (fun w => s.alloc w || (allocates c.phase && decide (w ∈ managed vars c.phase))) ∧
      (s.fault = false → (managed vars c.phase).Nodup →
        (allocates c.phase = true → ∀ v ∈ managed vars c.phase, s.alloc v = false) →
        s1.fault = false) := by
    have hst : exec beh (.stateCheck (initialState c.phase))
        { s with err := 0, ret := false, thread := c.thread } =
        { s with err := 0, ret := false, thread := c.thread } := by
      simp [exec, initialState_eq, h.1]
    have hth : exec beh (if c.phase = .run then .skip else .threadCheck)
        { s with err := 0, ret := false, thread := c.thread } =
        { s with err := 0, ret := false, thread := c.thread } := by
      split
      · rfl
      · next hp =>
        have : ¬ c.thread > 1 := by rcases h.2 with h | h <;> simp_all
        simp [exec, this]
    let s0 : St := { s with err := 0, ret := false, thread := c.thread }
    have hbody : s' = exec beh (.seq
          (if allocates c.phase then allocStmts (managed vars c.phase) else .skip)
          (.seq c.parts (.seq
            (if deallocates c.phase then deallocStmts (managed vars c.phase) else .skip)
            (setStateStmt c.phase)))) s0 := by
      show exec beh (groupBody vars c.phase c.parts) _ = _
      unfold groupBody
      rw [exec]
      simp only [exec.eq_3, Bool.false_eq_true, if_false]
      rw [exec, hth]
      simp only [Bool.false_eq_true, if_false]
      rw [exec, hst]
      simp only [Bool.false_eq_true, if_false]
      rfl
    cases ha : allocates c.phase with
    | false =>
      refine ⟨s0, ?_, rfl, rfl, rfl, rfl, ?_, ?_⟩
      · rw [hbody, ha]
        conv => lhs; rw [exec]
        simp [exec.eq_1, s0]
      · simp [s0]
      · intro hf _ _; exact hf
    | true =>
      refine ⟨exec beh (allocStmts (managed vars c.phase)) s0, ?_, ?_, ?_, ?_, ?_, ?_, ?_⟩
      · rw [hbody, ha]
        conv => lhs; rw [exec]
        simp only [if_true]
        rw [if_neg]
        rw [exec_allocs beh _ s0 rfl]; simp [s0]
      · rw [exec_allocs beh _ s0 rfl]
      · rw [exec_allocs beh _ s0 rfl]
      · rw [exec_allocs beh _ s0 rfl]
      · rw [exec_allocs beh _ s0 rfl]
      · rw [exec_allocs beh _ s0 rfl]
        funext w
        simp [s0, Bool.or_comm]
      · intro hf hn hal
        exact exec_allocs_fault beh _ s0 rfl hf hn (hal rfl)
  obtain ⟨s1, hs', he1, hc1, ht1, hr1, ha1, hf1⟩ := hpre
  have hparts : exec beh c.parts s1 =
      { s1 with trace := u.1, err := u.2.1, ret := u.2.2 } := by
    rw [exec_items beh items c.parts hg s1 hr1, fold_until beh _ s1 hr1 he1, ht1]
  rw [hs', exec, hparts]
  cases hu : u.2.2 with
  | true =>
    simp only [if_true, hc1, ha1, Bool.true_or, Bool.true_and]
    refine ⟨trivial, trivial, trivial, trivial, ?_⟩
    intro hf hn hal _
    exact hf1 hf hn hal
  | false =>
    simp only [Bool.false_eq_true, if_false, Bool.false_or]
    rw [exec]
    let s2 : St := { s1 with trace := u.1, err := u.2.1, ret := false }
    show _ ∧ _
    cases hd : deallocates c.phase with
    | false =>
      simp only [Bool.false_eq_true, if_false, exec.eq_1]
      rw [exec_setState beh c.phase _ (by simp [hc1, h.1])]
      simp only [ha1, Bool.false_and, Bool.not_false, Bool.true_and]
      refine ⟨trivial, trivial, trivial, trivial, ?_⟩
      intro hf hn hal _
      exact hf1 hf hn hal
    | true =>
      simp only [if_true]
      have hdx := exec_deallocs beh (managed vars c.phase) s2 rfl
      have hret : (exec beh (deallocStmts (managed vars c.phase)) s2).ret = false := by
        rw [hdx]
      rw [if_neg (by rw [hret]; decide)]
      rw [exec_setState beh c.phase _ (by rw [hdx]; simp [s2, hc1, h.1])]
      refine ⟨by rw [hdx], by rw [hdx], rfl, ?_, ?_⟩
      · rw [hdx]
        simp only [s2, ha1, Bool.true_and]
      · intro hf hn hal hdl
        refine exec_deallocs_fault beh _ s2 rfl (hf1 hf hn hal) hn ?_
        intro v hv
        simp [s2, ha1, hdl trivial v hv]

/-- **C06**.  A call in the right suite state runs its parts (exactly as C07 says) and, unless
a debug check returns early, moves the suite to the state that follows the phase. -/
theorem C06_accept (beh : Beh) (vars : List SVar) (s : St) (c : Call) (items : Items)
    (hg : Generated c items) (h : Admitted s c) :
    let u := untilError beh s.trace items.order
    let s' := callGroup beh vars s c
    s'.trace = u.1 ∧ s'.err = u.2.1 ∧
    s'.css = (if u.2.2 then s.css else (leadsTo c.phase).toList) := by
  obtain ⟨h1, h2, h3, _, _⟩ := exec_groupBody_accept beh vars s c items hg h
  exact ⟨h1, h2, h3⟩

example : ∃ c items, Generated c items ∧ Admitted St.init c ∧ items.order ≠ [] :=
  ⟨⟨.initialize, _, 0⟩, .cons (.scheme [] ['a']) .nil, rfl, by unfold Admitted; decide,
    by simp [Items.order, Item.order]⟩

/-- For each call of a history, the phase and the error code it returned. -/
def returned (beh : Beh) (vars : List SVar) : St → List Call → List (Phase × Int)
  | _, [] => []
  | s, c :: cs =>
    (c.phase, (callGroup beh vars s c).err) :: returned beh vars (callGroup beh vars s c) cs

/-- Paths from a given suite state. -/
def PathFrom (css : Name) (l : List Phase) : Prop :=
  (css = "uninitialized".toList ∧ PathUninit l) ∨ (css = "initialized".toList ∧ PathInit l) ∨
  (css = "in_time_step".toList ∧ PathStep l)

theorem PathFrom.cons {p : Phase} {l : List Phase}
    (h : PathFrom (leadsTo p).toList l) : PathFrom (requires p).toList (p :: l) := by
  rcases h with ⟨h1, h2⟩ | ⟨h1, h2⟩ | ⟨h1, h2⟩ <;> cases p <;>
    first
      | exact absurd h1 (by decide)
      | exact Or.inl ⟨rfl, .register h2⟩
      | exact Or.inl ⟨rfl, .initialize h2⟩
      | exact Or.inr (Or.inl ⟨rfl, .timestepInitial h2⟩)
      | exact Or.inr (Or.inl ⟨rfl, .finalize h2⟩)
      | exact Or.inr (Or.inr ⟨rfl, .run h2⟩)
      | exact Or.inr (Or.inr ⟨rfl, .timestepFinal h2⟩)

theorem PathFrom.uncons {css : Name} {p : Phase} {l : List Phase}
    (h : PathFrom css (p :: l)) :
    css = (requires p).toList ∧ PathFrom (leadsTo p).toList l := by
  rcases h with ⟨rfl, h⟩ | ⟨rfl, h⟩ | ⟨rfl, h⟩
  · cases h with
    | register h => exact ⟨rfl, Or.inl ⟨rfl, h⟩⟩
    | «initialize» h => exact ⟨rfl, Or.inr (Or.inl ⟨rfl, h⟩)⟩
  · cases h with
    | timestepInitial h => exact ⟨rfl, Or.inr (Or.inr ⟨rfl, h⟩)⟩
    | finalize h => exact ⟨rfl, Or.inl ⟨rfl, h⟩⟩
  · cases h with
    | run h => exact ⟨rfl, Or.inr (Or.inr ⟨rfl, h⟩)⟩
    | timestepFinal h => exact ⟨rfl, Or.inr (Or.inl ⟨rfl, h⟩)⟩

theorem PathFrom.nil {css : Name} (h : css = "uninitialized".toList ∨ css = "initialized".toList ∨
    css = "in_time_step".toList) : PathFrom css [] := by
  rcases h with h | h | h
  · exact Or.inl ⟨h, .stop⟩
  · exact Or.inr (Or.inl ⟨h, .stop⟩)
  · exact Or.inr (Or.inr ⟨h, .stop⟩)

theorem leadsTo_state (p : Phase) : (leadsTo p).toList = "uninitialized".toList ∨
    (leadsTo p).toList = "initialized".toList ∨ (leadsTo p).toList = "in_time_step".toList := by
  cases p <;> decide

theorem untilError_ret_err (beh : Beh) (pre l : List Step) :
    (untilError beh pre l).2.1 = 0 → (untilError beh pre l).2.2 = false := by
  induction l generalizing pre with
  | nil => intro _; rfl
  | cons x l ih =>
    simp only [untilError]
    split
    · exact ih _
    · split <;> simp

theorem untilError_allOk (beh : Beh) (pre l : List Step) (h : ∀ tr, beh tr = 0) :
    untilError beh pre l = (pre ++ l, 0, false) := by
  induction l generalizing pre with
  | nil => simp [untilError]
  | cons x l ih => simp [untilError, h, ih]

/-- **C06**.  For every history of calls in which no scheme (or debug check) reports an error, the
calls that return 0 form a path of
`(register | initialize (timestep_initial run* timestep_final)* finalize)*`; all other calls
are refused (error code 1, no effect: `C06_reject`). -/
theorem C06_path (beh : Beh) (vars : List SVar) (cs : List Call) (hb : ∀ tr, beh tr = 0)
    (hg : ∀ c ∈ cs, ∃ items, Generated c items) :
    PathUninit (((returned beh vars St.init cs).filter (fun r => r.2 == 0)).map (·.1)) := by
  have key : ∀ (cs : List Call) (s : St), (∀ c ∈ cs, ∃ items, Generated c items) →
      (s.css = "uninitialized".toList ∨ s.css = "initialized".toList ∨
        s.css = "in_time_step".toList) →
      PathFrom s.css (((returned beh vars s cs).filter (fun r => r.2 == 0)).map (·.1)) := by
    intro cs
    induction cs with
    | nil => intro s _ hs; exact PathFrom.nil hs
    | cons c cs ih =>
      intro s hg hs
      obtain ⟨items, hi⟩ := hg c (by simp)
      have hg' : ∀ c ∈ cs, ∃ items, Generated c items := fun c hc => hg c (by simp [hc])
      simp only [returned]
      by_cases ha : Admitted s c
      · obtain ⟨_, h2, h3⟩ := C06_accept beh vars s c items hi ha
        simp only [untilError_allOk beh _ _ hb, Bool.false_eq_true, if_false] at h2 h3
        rw [List.filter_cons_of_pos (by simp [h2]), List.map_cons, ha.1]
        apply PathFrom.cons
        rw [← h3]
        apply ih _ hg'
        rw [h3]
        exact leadsTo_state _
      · obtain ⟨h1, _, h3, _⟩ := C06_reject beh vars s c ha
        rw [List.filter_cons_of_neg (by simp [h1])]
        have := ih (callGroup beh vars s c) hg' (by rw [h3]; exact hs)
        rwa [h3] at this
  rcases key cs St.init hg (Or.inl rfl) with ⟨_, h⟩ | ⟨h, _⟩ | ⟨h, _⟩
  · exact h
  · exact absurd h (by decide)
  · exact absurd h (by decide)

/-- **C06**.  With arbitrary scheme behaviour: if every call of a history returns 0 then the
history is an allowed path. -/
theorem C06_all_ok_path (beh : Beh) (vars : List SVar) (cs : List Call)
    (hg : ∀ c ∈ cs, ∃ items, Generated c items)
    (hok : ∀ r ∈ returned beh vars St.init cs, r.2 = 0) :
    PathUninit (cs.map (·.phase)) := by
  have key : ∀ (cs : List Call) (s : St), (∀ c ∈ cs, ∃ items, Generated c items) →
      (∀ r ∈ returned beh vars s cs, r.2 = 0) →
      (s.css = "uninitialized".toList ∨ s.css = "initialized".toList ∨
        s.css = "in_time_step".toList) → PathFrom s.css (cs.map (·.phase)) := by
    intro cs
    induction cs with
    | nil => intro s _ _ hs; exact PathFrom.nil hs
    | cons c cs ih =>
      intro s hg hok hs
      obtain ⟨items, hi⟩ := hg c (by simp)
      have h0 : (callGroup beh vars s c).err = 0 :=
        hok (c.phase, _) (by simp [returned])
      have hok' : ∀ r ∈ returned beh vars (callGroup beh vars s c) cs, r.2 = 0 :=
        fun r hr => hok r (by simp [returned, hr])
      by_cases ha : Admitted s c
      · obtain ⟨_, h2, h3⟩ := C06_accept beh vars s c items hi ha
        rw [h0] at h2
        simp only [untilError_ret_err _ _ _ h2.symm, Bool.false_eq_true, if_false] at h3
        rw [List.map_cons, ha.1]
        apply PathFrom.cons
        rw [← h3]
        apply ih _ (fun c hc => hg c (by simp [hc])) hok'
        rw [h3]
        exact leadsTo_state _
      · have := (C06_reject beh vars s c ha).1
        rw [h0] at this
        exact absurd this (by decide)
  rcases key cs St.init hg hok (Or.inl rfl) with ⟨_, h⟩ | ⟨h, _⟩ | ⟨h, _⟩
  · exact h
  · exact absurd h (by decide)
  · exact absurd h (by decide)

/-- **C06** (converse).  Every allowed path, called from thread 0 or 1 with error-free schemes,
is accepted: every call returns 0. -/
theorem C06_path_accepted (beh : Beh) (vars : List SVar) (cs : List Call)
    (hb : ∀ tr, beh tr = 0) (hg : ∀ c ∈ cs, ∃ items, Generated c items)
    (ht : ∀ c ∈ cs, c.thread ≤ 1) (hp : PathUninit (cs.map (·.phase))) :
    ∀ r ∈ returned beh vars St.init cs, r.2 = 0 := by
  have key : ∀ (cs : List Call) (s : St), (∀ c ∈ cs, ∃ items, Generated c items) →
      (∀ c ∈ cs, c.thread ≤ 1) → PathFrom s.css (cs.map (·.phase)) →
      ∀ r ∈ returned beh vars s cs, r.2 = 0 := by
    intro cs
    induction cs with
    | nil => intro s _ _ _ r hr; simp [returned] at hr
    | cons c cs ih =>
      intro s hg ht hp r hr
      obtain ⟨items, hi⟩ := hg c (by simp)
      obtain ⟨hc, hp'⟩ := PathFrom.uncons hp
      have ha : Admitted s c := ⟨hc, Or.inr (ht c (by simp))⟩
      obtain ⟨_, h2, h3⟩ := C06_accept beh vars s c items hi ha
      simp only [untilError_allOk beh _ _ hb, Bool.false_eq_true, if_false] at h2 h3
      simp only [returned, List.mem_cons] at hr
      rcases hr with rfl | hr
      · exact h2
      · refine ih _ (fun c hc => hg c (by simp [hc])) (fun c hc => ht c (by simp [hc])) ?_ r hr
        rw [h3]; exact hp'
  exact key cs St.init hg ht (Or.inl ⟨rfl, hp⟩)

example : PathUninit [.register, .initialize, .timestepInitial, .run, .run, .timestepFinal,
    .finalize, .initialize] :=
  .register (.initialize (.timestepInitial (.run (.run (.timestepFinal (.finalize
    (.initialize .stop)))))))
example : ¬ PathUninit [.run] := by intro h; cases h

/-! ## C07 -/

/-- **C07** (partial: for groups the generator can write at all, i.e. without `subcycle`; see
`C07_subcycle_violated`).  A call that is let through executes the steps of the
group in suite-definition order, loops unrolled, up to and including the first one that
reports an error; that step's error code is returned. -/
theorem C07_order_and_stop_partial (beh : Beh) (vars : List SVar) (s : St) (c : Call)
    (items : Items) (hg : Generated c items) (h : Admitted s c) :
    (∀ pre x post, items.order = pre ++ x :: post →
      (∀ a b, pre = a ++ b → b ≠ [] → ∀ y b', b = y :: b' → beh (s.trace ++ a ++ [y]) = 0) →
      beh (s.trace ++ pre ++ [x]) ≠ 0 →
        (callGroup beh vars s c).trace = s.trace ++ pre ++ [x] ∧
        (callGroup beh vars s c).err =
          (match x with | .check _ => 1 | .call _ => beh (s.trace ++ pre ++ [x]))) ∧
    ((∀ a y b, items.order = a ++ y :: b → beh (s.trace ++ a ++ [y]) = 0) →
        (callGroup beh vars s c).trace = s.trace ++ items.order ∧
        (callGroup beh vars s c).err = 0) := by
  obtain ⟨h1, h2, _⟩ := C06_accept beh vars s c items hg h
  have key1 : ∀ (pre : List Step) (tr : List Step) x post,
      (∀ a b, pre = a ++ b → b ≠ [] → ∀ y b', b = y :: b' → beh (tr ++ a ++ [y]) = 0) →
      beh (tr ++ pre ++ [x]) ≠ 0 →
      (untilError beh tr (pre ++ x :: post)).1 = tr ++ pre ++ [x] ∧
      (untilError beh tr (pre ++ x :: post)).2.1 =
          (match x with | .check _ => 1 | .call _ => beh (tr ++ pre ++ [x])) := by
    intro pre
    induction pre with
    | nil =>
      intro tr x post _ hx
      simp only [List.append_nil] at hx
      cases x <;> simp [untilError, hx]
    | cons y pre ih =>
      intro tr x post hpre hx
      have hy : beh (tr ++ [y]) = 0 := by
        have := hpre [] (y :: pre) rfl (by simp) y pre rfl
        simpa using this
      have hx' : beh ((tr ++ [y]) ++ pre ++ [x]) ≠ 0 := by simpa using hx
      have := ih (tr ++ [y]) x post ?_ hx'
      · simp only [List.cons_append, untilError, hy, if_true]
        simpa using this
      · intro a b hab hb z b' hbz
        have := hpre (y :: a) b (by simp [hab]) hb z b' hbz
        simpa using this
  have key2 : ∀ (l : List Step) (tr : List Step),
      (∀ a y b, l = a ++ y :: b → beh (tr ++ a ++ [y]) = 0) →
      untilError beh tr l = (tr ++ l, 0, false) := by
    intro l
    induction l with
    | nil => intro tr _; simp [untilError]
    | cons y l ih =>
      intro tr hl
      have hy : beh (tr ++ [y]) = 0 := by simpa using hl [] y l rfl
      simp only [untilError, hy, if_true]
      rw [ih (tr ++ [y])]
      · simp
      · intro a z b hab
        have := hl (y :: a) z b (by simp [hab])
        simpa using this
  constructor
  · intro pre x post ho hpre hx
    rw [h1, h2, ho]
    exact key1 pre s.trace x post hpre hx
  · intro hall
    rw [h1, h2, key2 _ _ hall]
    exact ⟨rfl, rfl⟩

example : ∃ stmt, (Items.cons (.timesplit (.cons (.scheme [] ['a']) (.cons (.vloop 2
    (.cons (.scheme [] ['b']) .nil)) .nil))) .nil).write = .ok stmt := ⟨_, rfl⟩

mutual
theorem write_item_iff (x : Item) : (∃ a, x.write = .ok a) ↔ x.noSubcycle = true := by
  match x with
  | .scheme _ _ => simp [Item.write, Item.noSubcycle]
  | .vloop n b =>
    have := write_items_iff b
    simp only [Item.write, Item.noSubcycle, ← this]
    cases b.write <;> simp [Except.map]
  | .subcycle _ _ => simp [Item.write, Item.noSubcycle]
  | .timesplit b => exact write_items_iff b
theorem write_items_iff (x : Items) : (∃ a, x.write = .ok a) ↔ x.noSubcycle = true := by
  match x with
  | .nil => simp [Items.write, Items.noSubcycle]
  | .cons y ys =>
    have h1 := write_item_iff y
    have h2 := write_items_iff ys
    simp only [Items.write, Items.noSubcycle, Bool.and_eq_true, ← h1, ← h2]
    cases y.write <;> cases ys.write <;> simp [Except.map]
end

/-- **C07, violated for subcycles**: code is generated for a group exactly when it contains
no `subcycle`; a subcycle always ends in Python's RecursionError. -/
theorem C07_subcycle_violated (items : Items) :
    (items.noSubcycle = true ↔ ∃ a, items.write = .ok a) ∧
    (items.noSubcycle = false → items.write = .error .recursion) := by
  refine ⟨(write_items_iff items).symm, ?_⟩
  intro h
  cases hw : items.write with
  | error e => cases e; rfl
  | ok a =>
    have := (write_items_iff items).1 ⟨a, hw⟩
    rw [h] at this
    exact absurd this (by decide)

example : (Items.cons (.subcycle 2 .nil) .nil).noSubcycle = false := by decide

/-! ## C08 -/

/-- **C08** (partial).  A call that is refused, or ended by a failing debug check, leaves the suite
state unchanged, and `register` and `run` calls never change it.  Missing: a
*scheme* error in the other phases, where the claim is false (`C08_violated`). -/
theorem C08_state_kept_partial (beh : Beh) (vars : List SVar) (s : St) (c : Call)
    (items : Items) (hg : Generated c items)
    (h : ¬ Admitted s c ∨ (untilError beh s.trace items.order).2.2 = true ∨
      c.phase = .register ∨ c.phase = .run) :
    (callGroup beh vars s c).css = s.css := by
  by_cases ha : Admitted s c
  · obtain ⟨_, _, h3⟩ := C06_accept beh vars s c items hg ha
    rw [h3]
    rcases h with h | h | h | h
    · exact absurd ha h
    · simp [h]
    · have e : (leadsTo c.phase).toList = s.css := by rw [ha.1, h]; rfl
      rw [e, ite_self]
    · have e : (leadsTo c.phase).toList = s.css := by rw [ha.1, h]; rfl
      rw [e, ite_self]
  · exact (C06_reject beh vars s c ha).2.2.1

/-- **C08 is violated**, in every suite: whenever a scheme of an admitted `initialize` call
fails, the call returns the error but the suite is left in state `initialized`. -/
theorem C08_violated (beh : Beh) (vars : List SVar) (s : St) (name : Name) (e : Int)
    (hs : s.css = "uninitialized".toList) (he : e ≠ 0)
    (hb : beh (s.trace ++ [.call name]) = e) :
    ∃ c, Generated c (.cons (.scheme [] name) .nil) ∧
      (callGroup beh vars s c).err = e ∧ (callGroup beh vars s c).err ≠ 0 ∧
      (callGroup beh vars s c).css = "initialized".toList ∧
      (callGroup beh vars s c).css ≠ s.css := by
  have hg : Generated ⟨.initialize, _, 0⟩ (.cons (.scheme [] name) .nil) := rfl
  obtain ⟨_, h2, h3⟩ := C06_accept beh vars s _ _ hg ⟨hs, Or.inr (by simp)⟩
  have hu : untilError beh s.trace (Items.order (.cons (.scheme [] name) .nil)) =
      (s.trace ++ [.call name], e, false) := by
    simp [Items.order, Item.order, untilError, hb, he]
  rw [hu] at h2 h3
  refine ⟨_, hg, h2, by rw [h2]; exact he, h3, ?_⟩
  have e : (callGroup beh vars s _).css = "initialized".toList := h3
  rw [e, hs]
  decide

example : ∃ (beh : Beh), beh (St.init.trace ++ [.call ['a']]) = 7 := ⟨fun _ => 7, rfl⟩

/-! ## C09 -/

/-- The allocation status the documentation promises in each suite state. -/
def AllocOk (vars : List SVar) (s : St) : Prop :=
  s.fault = false ∧
  (s.css = "uninitialized".toList ∨ s.css = "initialized".toList ∨
    s.css = "in_time_step".toList) ∧
  ∀ v ∈ vars, v.hasDims = true →
    (v.pers = .run → (s.alloc v.name = true ↔ s.css ≠ "uninitialized".toList)) ∧
    (v.pers = .timestep → (s.alloc v.name = true ↔ s.css = "in_time_step".toList))

/-- The group was generated without debug checks (capgen not in debug mode). -/
def NoDebug (items : Items) : Prop := ∀ st ∈ items.order, ∃ n, st = .call n

theorem untilError_noDebug (beh : Beh) (pre l : List Step) (h : ∀ st ∈ l, ∃ n, st = .call n) :
    (untilError beh pre l).2.2 = false := by
  induction l generalizing pre with
  | nil => rfl
  | cons x l ih =>
    obtain ⟨n, rfl⟩ := h x (by simp)
    simp only [untilError]
    split
    · exact ih _ (fun st hst => h st (by simp [hst]))
    · rfl

theorem ne_un_in : ("uninitialized".toList = "initialized".toList) = False := by decide
theorem ne_un_st : ("uninitialized".toList = "in_time_step".toList) = False := by decide
theorem ne_in_un : ("initialized".toList = "uninitialized".toList) = False := by decide
theorem ne_in_st : ("initialized".toList = "in_time_step".toList) = False := by decide
theorem ne_st_un : ("in_time_step".toList = "uninitialized".toList) = False := by decide
theorem ne_st_in : ("in_time_step".toList = "initialized".toList) = False := by decide

theorem managed_nodup (vars : List SVar) (h : (vars.map (·.name)).Nodup) (p : Phase) :
    (managed vars p).Nodup :=
  h.sublist (List.Sublist.map _ List.filter_sublist)

theorem mem_managed {vars : List SVar} {p : Phase} {n : Name} :
    n ∈ managed vars p ↔ ∃ v ∈ vars, v.hasDims = true ∧ v.pers = groupType p ∧ v.name = n := by
  simp [managed, and_assoc]

theorem name_inj {vars : List SVar} (h : (vars.map (·.name)).Nodup) {v w : SVar}
    (hv : v ∈ vars) (hw : w ∈ vars) (e : v.name = w.name) : v = w := by
  induction vars with
  | nil => simp at hv
  | cons x xs ih =>
    rw [List.map_cons, List.nodup_cons] at h
    rcases List.mem_cons.1 hv with rfl | hv' <;> rcases List.mem_cons.1 hw with rfl | hw'
    · rfl
    · exact absurd (List.mem_map.2 ⟨w, hw', e.symm⟩) h.1
    · exact absurd (List.mem_map.2 ⟨v, hv', e⟩) h.1
    · exact ih h.2 hv' hw'

theorem mem_managed_self {vars : List SVar} (hn : (vars.map (·.name)).Nodup) {v : SVar}
    (hv : v ∈ vars) (hd : v.hasDims = true) (p : Phase) :
    v.name ∈ managed vars p ↔ v.pers = groupType p := by
  rw [mem_managed]
  constructor
  · rintro ⟨w, hw, _, hp, e⟩
    rw [name_inj hn hv hw e.symm]; exact hp
  · intro hp; exact ⟨v, hv, hd, hp, rfl⟩

/-- **C09** (partial: caps generated without debug checks; `C09_violated_debug` shows the claim
false with them).  After every history of calls — refused calls and failing schemes
included — no allocate/deallocate of a suite variable has ever failed, run-persistent
variables are allocated exactly outside `uninitialized` and timestep-persistent ones
exactly in `in_time_step`.  Suite variables have distinct local names (C33/C35). -/
theorem C09_allocation_partial (beh : Beh) (vars : List SVar) (cs : List Call)
    (hn : (vars.map (·.name)).Nodup)
    (hg : ∀ c ∈ cs, ∃ items, Generated c items ∧ NoDebug items) :
    AllocOk vars (runCalls beh vars St.init cs) := by
  have key : ∀ (cs : List Call) (s : St), AllocOk vars s →
      (∀ c ∈ cs, ∃ items, Generated c items ∧ NoDebug items) →
      AllocOk vars (runCalls beh vars s cs) := by
    intro cs
    induction cs with
    | nil => intro s hs _; exact hs
    | cons c cs ih =>
      intro s hs hg
      have : runCalls beh vars s (c :: cs) = runCalls beh vars (callGroup beh vars s c) cs := rfl
      rw [this]
      refine ih _ ?_ (fun c hc => hg c (by simp [hc]))
      obtain ⟨items, hi, hnd⟩ := hg c (by simp)
      obtain ⟨hf, hst, hv⟩ := hs
      by_cases ha : Admitted s c
      · obtain ⟨_, _, h3, h4, h5⟩ := exec_groupBody_accept beh vars s c items hi ha
        have hu := untilError_noDebug beh s.trace items.order hnd
        simp only [hu, Bool.false_eq_true, if_false, Bool.false_or] at h3 h4
        refine ⟨?_, ?_, ?_⟩
        · apply h5 hf (managed_nodup vars hn _)
          · intro hal n hm
            obtain ⟨v, hvm, hd, hp, rfl⟩ := mem_managed.1 hm
            have hv' := hv v hvm hd
            have hcss := ha.1
            rw [hcss] at hv'
            cases hph : c.phase <;> rw [hph] at hal hp hv' <;>
              simp only [allocates, Bool.false_eq_true] at hal <;>
              simp only [groupType] at hp
            · rw [← Bool.not_eq_true]; intro hx
              exact absurd ((hv'.1 hp).1 hx) (by decide)
            · rw [← Bool.not_eq_true]; intro hx
              exact absurd ((hv'.2 hp).1 hx) (by decide)
          · intro hal n hm
            obtain ⟨v, hvm, hd, hp, rfl⟩ := mem_managed.1 hm
            have hv' := hv v hvm hd
            have hcss := ha.1
            rw [hcss] at hv'
            cases hph : c.phase <;> rw [hph] at hal hp hv' <;>
              simp only [deallocates, Bool.false_eq_true] at hal <;>
              simp only [groupType] at hp
            · exact (hv'.2 hp).2 (by decide)
            · exact (hv'.1 hp).2 (by decide)
        · rw [h3]; exact leadsTo_state _
        · intro v hvm hd
          have hv' := hv v hvm hd
          rw [ha.1] at hv'
          rw [h3, h4]
          have hm := mem_managed_self hn hvm hd c.phase
          simp only [hm]
          cases hph : c.phase <;> rw [hph] at hv' <;> cases hp : v.pers <;>
            simp only [hp, allocates, deallocates, groupType, requires, leadsTo] at hv' ⊢ <;>
            cases hal : s.alloc v.name <;> rw [hal] at hv' <;>
            clear hm h3 h4 h5 <;>
            simp [ne_un_in, ne_un_st, ne_in_un, ne_in_st, ne_st_un, ne_st_in] at hv' ⊢
      · obtain ⟨_, _, h3, h4, h5⟩ := C06_reject beh vars s c ha
        refine ⟨by rw [h5]; exact hf, by rw [h3]; exact hst, ?_⟩
        intro v hvm hd
        rw [h3, h4]
        exact hv v hvm hd
  refine key cs St.init ?_ hg
  refine ⟨rfl, Or.inl rfl, ?_⟩
  intro v _ _
  constructor <;> intro _ <;> simp [St.init]

example : (([⟨['a'], true, .run⟩, ⟨['b'], true, .timestep⟩] : List SVar).map (·.name)).Nodup := by
  decide

/-- **C09 is violated in debug mode**: a failing size check of an `initialize` call returns after
the suite variables were allocated but before the suite state is set; calling `initialize`
again (which the suite state allows) then allocates an allocated variable. -/
theorem C09_violated_debug :
    ∃ (beh : Beh) (vars : List SVar) (c : Call) (items : Items), Generated c items ∧
      (vars.map (·.name)).Nodup ∧ (runCalls beh vars St.init [c, c]).fault = true := by
  refine ⟨fun _ => 1, [⟨['q'], true, .run⟩],
    ⟨.initialize, .seq (.ifOk (.seq (.seq (.check ['x']) .skip) (.call ['a']))) .skip, 0⟩,
    .cons (.scheme [['x']] ['a']) .nil, rfl, by decide, by decide⟩

/-! ## C44: threads -/

/-- **C44** (partial).  A non-run phase called from a thread numbered 2 or more is refused. -/
theorem C44_thread_check_partial (beh : Beh) (vars : List SVar) (s : St) (c : Call)
    (hp : c.phase ≠ .run) (ht : c.thread ≥ 2) :
    (callGroup beh vars s c).err = 1 ∧ (callGroup beh vars s c).trace = s.trace := by
  have h : ¬ Admitted s c := by
    rintro ⟨_, h | h⟩
    · exact hp h
    · omega
  exact ⟨(C06_reject beh vars s c h).1, (C06_reject beh vars s c h).2.1⟩

/-- **C44 is violated**: thread 1 (which exists only inside a threaded region) is let through and
runs the schemes of an `initialize` call. -/
theorem C44_violated (beh : Beh) (vars : List SVar) (s : St) (name : Name)
    (hs : s.css = "uninitialized".toList) :
    ∃ c, Generated c (.cons (.scheme [] name) .nil) ∧ c.phase = .initialize ∧ c.thread = 1 ∧
      (callGroup beh vars s c).trace = s.trace ++ [.call name] := by
  have hg : Generated ⟨.initialize, _, 1⟩ (.cons (.scheme [] name) .nil) := rfl
  refine ⟨_, hg, rfl, rfl, ?_⟩
  obtain ⟨h1, _, _⟩ := C06_accept beh vars s _ _ hg ⟨hs, Or.inr (by simp)⟩
  rw [h1]
  simp only [Items.order, Item.order, List.map_nil, List.nil_append, List.append_nil, untilError]
  split <;> rfl

end Ccpp.Cap
