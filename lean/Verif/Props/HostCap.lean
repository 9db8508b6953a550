import Verif.Model.HostCap
import Verif.Props.SuiteCap
/-! # C45, C46: the host cap -/
namespace Ccpp.Cap

/-- Two names are the same Fortran character value: they differ only in trailing blanks. -/
def SameText (a b : Name) : Prop := ∃ (c : Name) (m n : Nat),
  a = c ++ List.replicate m ' ' ∧ b = c ++ List.replicate n ' '

theorem dropBlanks_replicate (m : Nat) (l : List Char) :
    (List.replicate m ' ' ++ l).dropWhile (· == ' ') = l.dropWhile (· == ' ') := by
  induction m with
  | zero => simp
  | succ m ih => simp [List.replicate_succ, ih]

theorem split_blanks (l : List Char) :
    ∃ m, l = List.replicate m ' ' ++ l.dropWhile (· == ' ') := by
  induction l with
  | nil => exact ⟨0, rfl⟩
  | cons a l ih =>
    by_cases h : a = ' '
    · obtain ⟨m, hm⟩ := ih
      refine ⟨m + 1, ?_⟩
      subst h
      simp only [List.replicate_succ, List.cons_append, List.dropWhile_cons, beq_self_eq_true,
        if_true]
      rw [← hm]
    · exact ⟨0, by simp [h]⟩

theorem padEq_iff (a b : Name) : padEq a b = true ↔ SameText a b := by
  unfold padEq
  rw [beq_iff_eq]
  constructor
  · intro h
    obtain ⟨m, hm⟩ := split_blanks a.reverse
    obtain ⟨n, hn⟩ := split_blanks b.reverse
    refine ⟨(a.reverse.dropWhile (· == ' ')).reverse, m, n, ?_, ?_⟩
    · have := congrArg List.reverse hm
      simpa using this
    · have := congrArg List.reverse hn
      rw [← h] at this
      simpa using this
  · rintro ⟨c, m, n, rfl, rfl⟩
    simp [dropBlanks_replicate]

theorem SameText.symm {a b : Name} (h : SameText a b) : SameText b a := by
  obtain ⟨c, m, n, h1, h2⟩ := h
  exact ⟨c, n, m, h2, h1⟩

theorem find_pad {α : Type} (l : List α) (f : α → Name) (a : Name) (x : α) (hx : x ∈ l)
    (hs : SameText a (f x))
    (hd : ∀ y ∈ l, padEq (f y) (f x) = true → y = x) :
    l.find? (fun y => padEq a (f y)) = some x := by
  have hp := (padEq_iff _ _).2 hs
  induction l with
  | nil => simp at hx
  | cons y l ih =>
    by_cases hy : padEq a (f y) = true
    · have : y = x := by
        apply hd y (by simp)
        unfold padEq at *
        rw [beq_iff_eq] at *
        rw [← hy, hp]
      subst this
      simp [hp]
    · rw [List.find?_cons_of_neg (by simpa using hy)]
      rcases List.mem_cons.1 hx with rfl | hx
      · exact absurd hp hy
      · exact ih hx (fun z hz => hd z (by simp [hz]))

theorem find_pad_none {α : Type} (l : List α) (f : α → Name) (a : Name)
    (h : ∀ x ∈ l, ¬ SameText a (f x)) : l.find? (fun y => padEq a (f y)) = none := by
  rw [List.find?_eq_none]
  intro x hx hp
  exact h x hx ((padEq_iff _ _).1 hp)

/-- **C45**.  A host-cap call naming a suite (and, in the run phase, a part) that exists executes
exactly that suite's group for the phase, on that suite's state, and returns its error
code; the state of all other suites is untouched. -/
theorem C45_dispatch (beh : Beh) (suites : List SuiteDef) (h : Host) (p : Phase)
    (sname part : Name) (thread : Nat) (s : SuiteDef) (hs : s ∈ suites)
    (hn : SameText sname s.name) (hd : ∀ t ∈ suites, SameText t.name s.name → t = s)
    (code : Stmt)
    (hcode : (p ≠ .run ∧ code = s.full p) ∨
      (p = .run ∧ ∃ g ∈ s.groups, SameText part g.1 ∧ code = g.2 ∧
        ∀ g' ∈ s.groups, SameText g'.1 g.1 → g' = g)) :
    let st := callGroup beh s.vars (h.caps s.name) ⟨p, code, thread⟩
    let h' := hostPhase beh suites h p sname part thread
    h'.caps s.name = st ∧ h'.err = st.err ∧ ∀ n, n ≠ s.name → h'.caps n = h.caps n := by
  intro st h'
  have hf := find_pad suites (·.name) sname s hs hn
    (fun y hy hp => hd y hy ((padEq_iff _ _).1 hp))
  have hh : h' = hostPhase beh suites h p sname part thread := rfl
  unfold hostPhase at hh
  rw [hf] at hh
  rcases hcode with ⟨hp, rfl⟩ | ⟨rfl, g, hg, hpart, rfl, hgd⟩
  · cases p with
    | run => exact absurd rfl hp
    | register =>
      simp only at hh
      rw [hh]
      split <;>
      · refine ⟨by simp [callSuite, st], by simp [callSuite, st], ?_⟩
        intro n hne
        simp [callSuite, hne]
    | _ =>
      rw [hh]
      refine ⟨by simp [callSuite, st], by simp [callSuite, st], ?_⟩
      intro n hne
      simp [callSuite, hne]
  · have hfg := find_pad s.groups (·.1) part g hg hpart
      (fun y hy hp => hgd y hy ((padEq_iff _ _).1 hp))
    simp only [hfg] at hh
    rw [hh]
    refine ⟨by simp [callSuite, st], by simp [callSuite, st], ?_⟩
    intro n hne
    simp [callSuite, hne]

/-- **C45**.  A host-cap call naming no suite, or in the run phase no part of the suite, returns error
code 1 and changes nothing else. -/
theorem C45_unknown (beh : Beh) (suites : List SuiteDef) (h : Host) (p : Phase)
    (sname part : Name) (thread : Nat)
    (hu : (∀ s ∈ suites, ¬ SameText sname s.name) ∨
      (p = .run ∧ ∀ s ∈ suites, SameText sname s.name → ∀ g ∈ s.groups, ¬ SameText part g.1)) :
    hostPhase beh suites h p sname part thread = { h with err := 1 } := by
  unfold hostPhase
  rcases hu with hu | ⟨rfl, hu⟩
  · rw [find_pad_none suites (·.name) sname hu]
  · cases hf : suites.find? (fun s => padEq sname s.name) with
    | none => rfl
    | some s =>
      have hm := List.mem_of_find?_eq_some hf
      have hp := List.find?_some hf
      simp only
      rw [find_pad_none s.groups (·.1) part (hu s hm ((padEq_iff _ _).1 hp))]

example : SameText "cam7   ".toList "cam7".toList := ⟨"cam7".toList, 3, 0, by decide, by decide⟩

/-- **C46** (partial).  A `register` call never allocates an allocated dynamic-constituents array if
the array is not allocated (first call, or after the cleanup routine); it allocates the array of the
named suite, and no other, exactly if it succeeds.  The full property
(for every allowed call sequence) is false: `C46_violated`. -/
theorem C46_register_partial (beh : Beh) (suites : List SuiteDef) (h : Host)
    (sname part : Name) (thread : Nat) (hf : h.fault = false)
    (hd : ∀ s ∈ suites, h.dyn s.name = false) :
    let h' := hostPhase beh suites h .register sname part thread
    h'.fault = false ∧
    (h'.err = 0 → ∃ s ∈ suites, SameText sname s.name ∧
      ∀ n, h'.dyn n = if n = s.name then true else h.dyn n) ∧
    (h'.err ≠ 0 → h'.dyn = h.dyn) := by
  intro h'
  have hh : h' = hostPhase beh suites h .register sname part thread := rfl
  unfold hostPhase at hh
  cases hfd : suites.find? (fun s => padEq sname s.name) with
  | none =>
    rw [hfd] at hh
    simp only at hh
    rw [hh]
    exact ⟨hf, fun e => absurd e (show ¬ ((1 : Int) = 0) by decide), fun _ => rfl⟩
  | some s =>
    have hm := List.mem_of_find?_eq_some hfd
    have hsame : SameText sname s.name :=
      (padEq_iff _ _).1 (List.find?_some (p := fun s : SuiteDef => padEq sname s.name) hfd)
    rw [hfd] at hh
    simp only at hh
    split at hh
    · rename_i he
      rw [hh]
      exact ⟨hf, fun e => absurd e he, fun _ => rfl⟩
    · rename_i he
      rw [hh]
      refine ⟨by simp [callSuite, hf, hd s hm], fun _ => ⟨s, hm, hsame, fun n => rfl⟩, fun e => absurd ?_ e⟩
      simpa using he

example : ∀ s ∈ ([] : List SuiteDef), (hostCleanup Host.init).dyn s.name = false := by simp

/-- **C46 is violated**: the suite state allows `register` twice, but the second successful call
allocates the dynamic constituents array again, for every suite and scheme behaviour. -/
theorem C46_violated (beh : Beh) (s : SuiteDef) (part : Name) (items : Items)
    (hb : ∀ tr, beh tr = 0) (hg : items.write = .ok (s.full .register)) :
    let h1 := hostPhase beh [s] Host.init .register s.name part 0
    let h2 := hostPhase beh [s] h1 .register s.name part 0
    h1.err = 0 ∧ h1.fault = false ∧ h2.err = 0 ∧ h2.fault = true := by
  have hfind : [s].find? (fun t => padEq s.name t.name) = some s := by
    simp [padEq]
  have acc : ∀ st : St, st.css = "uninitialized".toList →
      (callGroup beh s.vars st ⟨.register, s.full .register, 0⟩).err = 0 ∧
      (callGroup beh s.vars st ⟨.register, s.full .register, 0⟩).css = "uninitialized".toList := by
    intro st hst
    obtain ⟨_, h2, h3⟩ := C06_accept beh s.vars st ⟨.register, s.full .register, 0⟩ items hg
      ⟨hst, Or.inr (by simp)⟩
    rw [untilError_allOk beh _ _ hb] at h2 h3
    exact ⟨h2, h3⟩
  obtain ⟨e1, c1⟩ := acc St.init rfl
  obtain ⟨e2, _⟩ := acc _ c1
  simp only [hostPhase, hfind, callSuite, Host.init, e1, e2, if_true, ne_eq, not_true_eq_false,
    if_false, Bool.false_or, Bool.or_true, and_self]

example : (Items.cons (.scheme [] ['r']) .nil).write =
    .ok (.seq (.ifOk (.seq .skip (.call ['r']))) .skip) := rfl

end Ccpp.Cap
