import Verif.Spec.Preproc
namespace Ccpp.Preproc
open Spec

theorem run_append {ev s a s1 o1 b s2 o2} (h1 : run ev s a = .ok (s1, o1))
    (h2 : run ev s1 b = .ok (s2, o2)) : run ev s (a ++ b) = .ok (s2, o1 ++ o2) := by
  induction a generalizing s o1 with
  | nil =>
    simp only [run, Except.ok.injEq, Prod.mk.injEq] at h1
    obtain ⟨rfl, rfl⟩ := h1
    simpa using h2
  | cons l a ih =>
    cases l with
    | text t =>
      simp only [run, List.cons_append] at h1 ⊢
      cases hr : run ev s a with
      | error e => simp [hr] at h1
      | ok p =>
        obtain ⟨s', out⟩ := p
        simp only [hr, Except.ok.injEq, Prod.mk.injEq] at h1
        obtain ⟨rfl, rfl⟩ := h1
        simp [ih hr]
    | dir d =>
      simp only [run, List.cons_append] at h1 ⊢
      cases hs : step ev s d with
      | error e => simp [hs] at h1
      | ok s0 =>
        simp only [hs] at h1 ⊢
        cases hr : run ev s0 a with
        | error e => simp [hr] at h1
        | ok p =>
          obtain ⟨s', out⟩ := p
          simp only [hr, Except.ok.injEq, Prod.mk.injEq] at h1
          obtain ⟨rfl, rfl⟩ := h1
          simp [ih hr]

theorem run_dir {ev s d s1 ls s2 o} (h1 : step ev s d = .ok s1)
    (h2 : run ev s1 ls = .ok (s2, o)) : run ev s (.dir d :: ls) = .ok (s2, [] :: o) := by
  simp [run, h1, h2]

theorem step_cond (ev s) (c : Cond) : step ev s c.dir = .ok (s.enter (c.holds ev s.defs)) := by
  cases c <;> rfl

theorem run_endif (ev r stk d) :
    run ev ⟨r :: stk, d⟩ [.dir .endif] = .ok (⟨stk, d⟩, [[]]) := by
  simp [run, step, St.exit]

mutual
theorem item_inactive (ev) (i : Item) (stk d) (h : stk.all (·.2) = false) :
    run ev ⟨stk, d⟩ i.lines = .ok (⟨stk, d⟩, i.lines.map (fun _ => [])) := by
  cases i with
  | text t => simp [Item.lines, run, St.inTrue, h]
  | define k v => simp [Item.lines, run, step, St.inTrue, h]
  | undef k => simp [Item.lines, run, step, St.inTrue, h]
  | cond c body rest =>
    simp only [Item.lines, List.map_cons, List.map_append]
    refine run_dir (step_cond ev _ c) ?_
    exact run_append (items_inactive ev body _ d (by simp [h]))
      (chain_inactive ev rest stk d _ _ h)
theorem items_inactive (ev) (is : Items) (stk d) (h : stk.all (·.2) = false) :
    run ev ⟨stk, d⟩ is.lines = .ok (⟨stk, d⟩, is.lines.map (fun _ => [])) := by
  cases is with
  | nil => simp [Items.lines, run]
  | cons i is =>
    simp only [Items.lines, List.map_append]
    exact run_append (item_inactive ev i stk d h) (items_inactive ev is stk d h)
theorem chain_inactive (ev) (ch : Chain) (stk d t cur) (h : stk.all (·.2) = false) :
    run ev ⟨(t, cur) :: stk, d⟩ ch.lines = .ok (⟨stk, d⟩, ch.lines.map (fun _ => [])) := by
  cases ch with
  | endif => simp [Chain.lines, run_endif]
  | els body =>
    simp only [Chain.lines, List.map_cons, List.map_append]
    refine run_dir (s1 := ⟨(t, !t) :: stk, d⟩) ?_
      (run_append (items_inactive ev body _ d (by simp [h])) (run_endif _ _ _ _))
    cases t <;> rfl
  | elif c body rest =>
    simp only [Chain.lines, List.map_cons, List.map_append]
    refine run_dir (s1 := ⟨(t, !t && ev c d) :: stk, d⟩) ?_
      (run_append (items_inactive ev body _ d (by simp [h]))
        (chain_inactive ev rest stk d _ _ h))
    cases t <;> rfl
end


mutual
theorem item_sem_inactive (ev) (i : Item) (d) :
    i.sem ev false d = (d, i.lines.map (fun _ => [])) := by
  cases i with
  | text t => rfl
  | define k v => rfl
  | undef k => rfl
  | cond c body rest =>
    simp [Item.sem, Item.lines, items_sem_inactive ev body d, chain_sem_inactive ev rest _ d]
theorem items_sem_inactive (ev) (is : Items) (d) :
    is.sem ev false d = (d, is.lines.map (fun _ => [])) := by
  cases is with
  | nil => rfl
  | cons i is =>
    simp [Items.sem, Items.lines, item_sem_inactive ev i d, items_sem_inactive ev is d]
theorem chain_sem_inactive (ev) (ch : Chain) (taken d) :
    ch.sem ev false taken d = (d, ch.lines.map (fun _ => [])) := by
  cases ch with
  | endif => rfl
  | els body => simp [Chain.sem, Chain.lines, items_sem_inactive ev body d]
  | elif c body rest =>
    simp [Chain.sem, Chain.lines, items_sem_inactive ev body d, chain_sem_inactive ev rest _ d]
end

theorem chain_sem_taken (ev) (ch : Chain) (act d) :
    ch.sem ev act true d = (d, ch.lines.map (fun _ => [])) := by
  match ch with
  | .endif => rfl
  | .els body => simp [Chain.sem, Chain.lines, items_sem_inactive ev body d]
  | .elif c body rest =>
    simp [Chain.sem, Chain.lines, items_sem_inactive ev body d, chain_sem_taken ev rest act d]

/-- The first branch was taken: everything after it is blanked. -/
theorem chain_dead (ev) (ch : Chain) (stk d cur) :
    run ev ⟨(true, cur) :: stk, d⟩ ch.lines = .ok (⟨stk, d⟩, ch.lines.map (fun _ => [])) := by
  match ch with
  | .endif => simp [Chain.lines, run_endif]
  | .els body =>
    simp only [Chain.lines, List.map_cons, List.map_append]
    exact run_dir (s1 := ⟨(true, false) :: stk, d⟩) rfl
      (run_append (items_inactive ev body _ d (by simp)) (run_endif _ _ _ _))
  | .elif c body rest =>
    simp only [Chain.lines, List.map_cons, List.map_append]
    exact run_dir (s1 := ⟨(true, false) :: stk, d⟩) rfl
      (run_append (items_inactive ev body _ d (by simp)) (chain_dead ev rest stk d _))

/-- No later branch would be taken on its own: everything is blanked. -/
theorem chain_allFalse (ev) (ch : Chain) (stk d cur) (h : ch.allFalse ev d = true) :
    run ev ⟨(false, cur) :: stk, d⟩ ch.lines = .ok (⟨stk, d⟩, ch.lines.map (fun _ => [])) := by
  match ch with
  | .endif => simp [Chain.lines, run_endif]
  | .els body => simp [Chain.allFalse] at h
  | .elif c body rest =>
    simp only [Chain.allFalse, Bool.and_eq_true, Bool.not_eq_true'] at h
    simp only [Chain.lines, List.map_cons, List.map_append]
    refine run_dir (s1 := ⟨(false, false) :: stk, d⟩) ?_
      (run_append (items_inactive ev body _ d (by simp)) (chain_allFalse ev rest stk d _ h.2))
    simp [step, St.modify, h.1]

mutual
theorem item_sem (ev) (i : Item) (stk d) (ha : stk.all (·.2) = true) (hs : i.unamb ev d = true) :
    run ev ⟨stk, d⟩ i.lines = .ok (⟨stk, (i.sem ev true d).1⟩, (i.sem ev true d).2) := by
  cases i with
  | text t => simp [Item.lines, Item.sem, run, St.inTrue, ha]
  | define k v => simp [Item.lines, Item.sem, run, step, St.inTrue, ha]
  | undef k => simp [Item.lines, Item.sem, run, step, St.inTrue, ha]
  | cond c body rest =>
    simp only [Item.lines, Item.sem]
    refine run_dir (step_cond ev _ c) ?_
    simp only [Item.unamb] at hs
    cases hc : c.holds ev d with
    | true =>
      simp only [hc, if_true] at hs
      have hb := items_sem ev body ((true, true) :: stk) d (by simp [ha]) hs
      have hr := chain_dead ev rest stk (body.sem ev true d).1 true
      simp only [St.enter, hc, Bool.and_self, chain_sem_taken]
      exact run_append hb hr
    | false =>
      simp only [hc, Bool.false_eq_true, if_false] at hs
      have hb := items_inactive ev body ((false, false) :: stk) d (by simp)
      have hr := chain_sem ev rest stk d false ha hs
      simp only [St.enter, hc, Bool.and_false, items_sem_inactive]
      exact run_append hb hr
theorem items_sem (ev) (is : Items) (stk d) (ha : stk.all (·.2) = true)
    (hs : is.unamb ev d = true) :
    run ev ⟨stk, d⟩ is.lines = .ok (⟨stk, (is.sem ev true d).1⟩, (is.sem ev true d).2) := by
  cases is with
  | nil => simp [Items.lines, Items.sem, run]
  | cons i is =>
    simp only [Items.unamb, Bool.and_eq_true] at hs
    simp only [Items.lines, Items.sem]
    exact run_append (item_sem ev i stk d ha hs.1) (items_sem ev is stk _ ha hs.2)
theorem chain_sem (ev) (ch : Chain) (stk d cur) (ha : stk.all (·.2) = true)
    (hs : ch.unamb ev d = true) :
    run ev ⟨(false, cur) :: stk, d⟩ ch.lines
      = .ok (⟨stk, (ch.sem ev true false d).1⟩, (ch.sem ev true false d).2) := by
  cases ch with
  | endif => simp [Chain.lines, Chain.sem, run_endif]
  | els body =>
    simp only [Chain.unamb] at hs
    simp only [Chain.lines, Chain.sem, Bool.not_false, Bool.and_self]
    have hb := items_sem ev body ((false, true) :: stk) d (by simp [ha]) hs
    exact run_dir (s1 := ⟨(false, true) :: stk, d⟩) rfl (run_append hb (run_endif _ _ _ _))
  | elif c body rest =>
    simp only [Chain.unamb] at hs
    simp only [Chain.lines, Chain.sem, Bool.not_false, Bool.true_and, Bool.false_or]
    refine run_dir (s1 := ⟨(false, ev c d) :: stk, d⟩) rfl ?_
    cases hc : ev c d with
    | true =>
      simp only [hc, if_true, Bool.and_eq_true] at hs
      have hb := items_sem ev body ((false, true) :: stk) d (by simp [ha]) hs.1
      simp only [chain_sem_taken]
      exact run_append hb (chain_allFalse ev rest stk _ _ hs.2)
    | false =>
      simp only [hc, Bool.false_eq_true, if_false] at hs
      have hb := items_inactive ev body ((false, false) :: stk) d (by simp)
      simp only [items_sem_inactive]
      exact run_append hb (chain_sem ev rest stk d false ha hs)
end

mutual
theorem item_total (ev) (i : Item) (stk d) :
    ∃ d' out, run ev ⟨stk, d⟩ i.lines = .ok (⟨stk, d'⟩, out) ∧ out.length = i.lines.length := by
  cases i with
  | text t => exact ⟨_, _, rfl, rfl⟩
  | define k v =>
    by_cases h : stk.all (·.2) = true
    · exact ⟨d.set k v, [[]], by simp [Item.lines, run, step, St.inTrue, h], rfl⟩
    · exact ⟨d, [[]], by simp [Item.lines, run, step, St.inTrue, h], rfl⟩
  | undef k =>
    by_cases h : stk.all (·.2) = true
    · exact ⟨d.remove k, [[]], by simp [Item.lines, run, step, St.inTrue, h], rfl⟩
    · exact ⟨d, [[]], by simp [Item.lines, run, step, St.inTrue, h], rfl⟩
  | cond c body rest =>
    simp only [Item.lines]
    obtain ⟨d1, o1, h1, e1⟩ := items_total ev body ((c.holds ev d, c.holds ev d) :: stk) d
    obtain ⟨d2, o2, h2, e2⟩ := chain_total ev rest stk d1 (c.holds ev d) (c.holds ev d)
    exact ⟨d2, _, run_dir (step_cond ev _ c) (run_append h1 h2), by simp [e1, e2]⟩
theorem items_total (ev) (is : Items) (stk d) :
    ∃ d' out, run ev ⟨stk, d⟩ is.lines = .ok (⟨stk, d'⟩, out) ∧ out.length = is.lines.length := by
  cases is with
  | nil => exact ⟨_, _, rfl, rfl⟩
  | cons i is =>
    simp only [Items.lines]
    obtain ⟨d1, o1, h1, e1⟩ := item_total ev i stk d
    obtain ⟨d2, o2, h2, e2⟩ := items_total ev is stk d1
    exact ⟨d2, _, run_append h1 h2, by simp [e1, e2]⟩
theorem chain_total (ev) (ch : Chain) (stk d t cur) :
    ∃ d' out, run ev ⟨(t, cur) :: stk, d⟩ ch.lines = .ok (⟨stk, d'⟩, out)
      ∧ out.length = ch.lines.length := by
  cases ch with
  | endif => exact ⟨_, _, run_endif _ _ _ _, rfl⟩
  | els body =>
    simp only [Chain.lines]
    obtain ⟨d1, o1, h1, e1⟩ := items_total ev body ((t, !t) :: stk) d
    refine ⟨d1, _, run_dir (s1 := ⟨(t, !t) :: stk, d⟩) ?_ (run_append h1 (run_endif _ _ _ _)),
      by simp [e1]⟩
    cases t <;> rfl
  | elif c body rest =>
    simp only [Chain.lines]
    obtain ⟨d1, o1, h1, e1⟩ := items_total ev body ((t, !t && ev c d) :: stk) d
    obtain ⟨d2, o2, h2, e2⟩ := chain_total ev rest stk d1 t (!t && ev c d)
    refine ⟨d2, _, run_dir (s1 := ⟨(t, !t && ev c d) :: stk, d⟩) ?_ (run_append h1 h2),
      by simp [e1, e2]⟩
    cases t <;> rfl
end

/-- The depth of the stack follows the specification's counter exactly. -/
theorem run_depth (ev) (ls : List Line) (s : St) :
    (run ev s ls).toOption.map (fun p => p.1.stack.length) = depth s.stack.length ls := by
  induction ls generalizing s with
  | nil => rfl
  | cons l ls ih =>
    cases l with
    | text t =>
      simp only [run, depth]
      rw [← ih s]
      cases run ev s ls <;> rfl
    | dir d =>
      have go : ∀ s1, step ev s d = .ok s1 →
          (run ev s (.dir d :: ls)).toOption.map (fun p => p.1.stack.length)
            = depth s1.stack.length ls := by
        intro s1 h
        rw [← ih s1]
        simp only [run, h]
        cases run ev s1 ls <;> rfl
      have bad : ∀ e, step ev s d = .error e →
          (run ev s (.dir d :: ls)).toOption.map (fun p => p.1.stack.length) = none := by
        intro e h
        simp only [run, h]; rfl
      cases d with
      | ifdef k => exact go _ rfl
      | ifndef k => exact go _ rfl
      | ifc c => cases c <;> exact go _ rfl
      | elifc c =>
        obtain ⟨stk, df⟩ := s
        cases stk with
        | nil => exact bad _ rfl
        | cons r t =>
          obtain ⟨a, b⟩ := r
          cases a <;> (rw [go _ rfl]; rfl)
      | els =>
        obtain ⟨stk, df⟩ := s
        cases stk with
        | nil => exact bad _ rfl
        | cons r t =>
          obtain ⟨a, b⟩ := r
          cases a <;> (rw [go _ rfl]; rfl)
      | endif =>
        obtain ⟨stk, df⟩ := s
        cases stk with
        | nil => exact bad _ rfl
        | cons r t => exact go _ rfl
      | define k v =>
        rw [go _ rfl]
        simp only [depth]
        split <;> rfl
      | undef k =>
        rw [go _ rfl]
        simp only [depth]
        split <;> rfl
      | other => exact go _ rfl

end Ccpp.Preproc
