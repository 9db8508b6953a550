import Verif.Spec.SuiteCap
namespace Ccpp.Cap

theorem initialState_eq (p : Phase) : initialState p = (requires p).toList := by
  cases p <;> decide
theorem finalState_eq (p : Phase) : finalState p = (leadsTo p).toList := by
  cases p <;> decide

def specStep (beh : Beh) (s : St) : Step → St
  | .check c => if s.ret || s.err != 0 then s else exec beh (.check c) s
  | .call n => if s.ret || s.err != 0 then s else exec beh (.call n) s

theorem fold_stuck (beh : Beh) (l : List Step) (s : St)
    (h : (s.ret || s.err != 0) = true) : l.foldl (specStep beh) s = s := by
  induction l with
  | nil => rfl
  | cons x l ih =>
    have : specStep beh s x = s := by cases x <;> simp only [specStep, h, if_true]
    rw [List.foldl_cons, this, ih]

theorem exec_checks (beh : Beh) (cs : List Name) (s : St) (hr : s.ret = false)
    (he : s.err = 0) :
    exec beh (checkStmts cs) s = (cs.map Step.check).foldl (specStep beh) s := by
  induction cs generalizing s with
  | nil => rfl
  | cons c cs ih =>
    simp only [checkStmts, exec, List.map_cons, List.foldl_cons]
    have h1 : specStep beh s (.check c) = exec beh (.check c) s := by
      simp [specStep, hr, he]
    rw [h1]
    simp only [exec]
    by_cases hb : beh (s.trace ++ [Step.check c]) = 0
    · simp only [hb, ne_eq, not_true_eq_false, if_false]
      rw [if_neg (by simp [hr])]
      exact ih { s with trace := s.trace ++ [Step.check c] } hr he
    · simp only [ne_eq, hb, not_false_eq_true, if_true]
      rw [fold_stuck]
      simp

theorem fold_checks_err (beh : Beh) (cs : List Name) (s : St) (hr : s.ret = false)
    (he : s.err = 0) :
    let s' := (cs.map Step.check).foldl (specStep beh) s
    s'.ret = false → s'.err = 0 := by
  induction cs generalizing s with
  | nil => intro s' _; exact he
  | cons c cs ih =>
    simp only [List.map_cons, List.foldl_cons]
    have h1 : specStep beh s (.check c) = exec beh (.check c) s := by
      simp [specStep, hr, he]
    rw [h1]
    simp only [exec]
    by_cases hb : beh (s.trace ++ [Step.check c]) = 0
    · simp only [hb, ne_eq, not_true_eq_false, if_false]
      exact ih { s with trace := s.trace ++ [Step.check c] } hr he
    · simp only [ne_eq, hb, not_false_eq_true, if_true]
      rw [fold_stuck] <;> simp

theorem iter_fold (beh : Beh) (b : Stmt) (l : List Step)
    (h : ∀ s : St, s.ret = false → exec beh b s = l.foldl (specStep beh) s) (n : Nat) (s : St) :
    iter (fun s => if s.ret then s else exec beh b s) n s =
      ((List.replicate n l).flatten).foldl (specStep beh) s := by
  induction n generalizing s with
  | zero => rfl
  | succ n ih =>
    simp only [iter, List.replicate_succ, List.flatten_cons, List.foldl_append]
    rw [ih]
    cases hr : s.ret with
    | true =>
      simp only [if_true]
      rw [fold_stuck beh l s (by simp [hr])]
    | false =>
      simp only [Bool.false_eq_true, if_false]
      rw [h s hr]

mutual
theorem exec_item (beh : Beh) (x : Item) (a : Stmt) (h : x.write = .ok a) (s : St)
    (hr : s.ret = false) : exec beh a s = x.order.foldl (specStep beh) s := by
  match x with
  | .scheme cs n =>
    simp only [Item.write, Except.ok.injEq] at h
    subst h
    simp only [exec, Item.order, List.foldl_append, List.foldl_cons, List.foldl_nil]
    by_cases he : s.err = 0
    · simp only [he, if_true]
      rw [exec_checks beh cs s hr he]
      have hc := fold_checks_err beh cs s hr he
      simp only at hc
      cases hr' : ((cs.map Step.check).foldl (specStep beh) s).ret with
      | true => simp [specStep, hr']
      | false => simp [specStep, hr', hc hr', exec]
    · simp only [he, if_false]
      rw [fold_stuck beh _ s (by simp [he])]
      simp [specStep, he]
  | .vloop n b =>
    simp only [Item.write] at h
    cases hb : b.write with
    | error e => rw [hb] at h; simp [Except.map] at h
    | ok c =>
      rw [hb] at h
      simp only [Except.map, Except.ok.injEq] at h
      subst h
      simp only [exec, Item.order]
      exact iter_fold beh c b.order (fun s hs => exec_items beh b c hb s hs) n s
  | .subcycle _ _ => simp [Item.write] at h
  | .timesplit b =>
    simp only [Item.write] at h
    simp only [Item.order]
    exact exec_items beh b a h s hr
theorem exec_items (beh : Beh) (x : Items) (a : Stmt) (h : x.write = .ok a) (s : St)
    (hr : s.ret = false) : exec beh a s = x.order.foldl (specStep beh) s := by
  match x with
  | .nil =>
    simp only [Items.write, Except.ok.injEq] at h
    subst h
    rfl
  | .cons y ys =>
    simp only [Items.write] at h
    cases hy : y.write with
    | error e => rw [hy] at h; simp at h
    | ok b =>
      rw [hy] at h
      simp only at h
      cases hys : ys.write with
      | error e => rw [hys] at h; simp [Except.map] at h
      | ok c =>
        rw [hys] at h
        simp only [Except.map, Except.ok.injEq] at h
        subst h
        simp only [exec, Items.order, List.foldl_append]
        rw [exec_item beh y b hy s hr]
        cases hr' : (y.order.foldl (specStep beh) s).ret with
        | true =>
          simp only [if_true]
          rw [fold_stuck beh ys.order _ (by simp [hr'])]
        | false =>
          simp only [Bool.false_eq_true, if_false]
          exact exec_items beh ys c hys _ hr'
end

theorem fold_until (beh : Beh) (l : List Step) (s : St) (hr : s.ret = false) (he : s.err = 0) :
    l.foldl (specStep beh) s =
      { s with trace := (untilError beh s.trace l).1, err := (untilError beh s.trace l).2.1,
               ret := (untilError beh s.trace l).2.2 } := by
  induction l generalizing s with
  | nil => cases s; simp_all [untilError]
  | cons x l ih =>
    rw [List.foldl_cons]
    by_cases hb : beh (s.trace ++ [x]) = 0
    · have h1 : specStep beh s x = { s with trace := s.trace ++ [x] } := by
        cases x <;> simp [specStep, hr, he, exec, hb]
      rw [h1, ih { s with trace := s.trace ++ [x] } hr he]
      simp [untilError, hb]
    · cases x with
      | check c =>
        have h1 : specStep beh s (.check c) =
            { s with trace := s.trace ++ [.check c], err := 1, ret := true } := by
          simp [specStep, hr, he, exec, hb]
        rw [h1, fold_stuck _ _ _ (by simp)]
        simp [untilError, hb]
      | call c =>
        have h1 : specStep beh s (.call c) =
            { s with trace := s.trace ++ [.call c], err := beh (s.trace ++ [.call c]) } := by
          simp [specStep, hr, he, exec]
        rw [h1, fold_stuck _ _ _ (by simp [hb])]
        simp [untilError, hb, hr]

theorem exec_allocs (beh : Beh) (vs : List Name) (s : St) (hr : s.ret = false) :
    exec beh (allocStmts vs) s =
      { s with alloc := fun w => decide (w ∈ vs) || s.alloc w,
               fault := (exec beh (allocStmts vs) s).fault } := by
  induction vs generalizing s with
  | nil => cases s; simp [allocStmts, exec]
  | cons v vs ih =>
    simp only [allocStmts, exec, hr, Bool.false_eq_true, if_false]
    rw [ih _ (by simp)]
    simp only [St.mk.injEq, true_and, and_true]
    funext w
    by_cases h : w = v <;> simp [h]

theorem exec_allocs_fault (beh : Beh) (vs : List Name) (s : St) (hr : s.ret = false)
    (hf : s.fault = false) (hn : vs.Nodup) (ha : ∀ v ∈ vs, s.alloc v = false) :
    (exec beh (allocStmts vs) s).fault = false := by
  induction vs generalizing s with
  | nil => simp [allocStmts, exec, hf]
  | cons v vs ih =>
    simp only [allocStmts, exec, hr, Bool.false_eq_true, if_false]
    apply ih
    · simp
    · simp [hf, ha]
    · exact (List.nodup_cons.1 hn).2
    · intro w hw
      have : w ≠ v := by rintro rfl; exact (List.nodup_cons.1 hn).1 hw
      simp [this, ha w (by simp [hw])]

theorem exec_deallocs (beh : Beh) (vs : List Name) (s : St) (hr : s.ret = false) :
    exec beh (deallocStmts vs) s =
      { s with alloc := fun w => !decide (w ∈ vs) && s.alloc w,
               fault := (exec beh (deallocStmts vs) s).fault } := by
  induction vs generalizing s with
  | nil => cases s; simp [deallocStmts, exec]
  | cons v vs ih =>
    simp only [deallocStmts, exec, hr, Bool.false_eq_true, if_false]
    rw [ih _ (by simp)]
    simp only [St.mk.injEq, true_and, and_true]
    funext w
    by_cases h : w = v <;> simp [h]

theorem exec_deallocs_fault (beh : Beh) (vs : List Name) (s : St) (hr : s.ret = false)
    (hf : s.fault = false) (hn : vs.Nodup) (ha : ∀ v ∈ vs, s.alloc v = true) :
    (exec beh (deallocStmts vs) s).fault = false := by
  induction vs generalizing s with
  | nil => simp [deallocStmts, exec, hf]
  | cons v vs ih =>
    simp only [deallocStmts, exec, hr, Bool.false_eq_true, if_false]
    apply ih
    · simp
    · simp [hf, ha]
    · exact (List.nodup_cons.1 hn).2
    · intro w hw
      have : w ≠ v := by rintro rfl; exact (List.nodup_cons.1 hn).1 hw
      simp [this, ha w (by simp [hw])]

end Ccpp.Cap
