import Verif.Props.DataTable
/-!
# C66: lists of variables
-/
namespace Ccpp.DT
open XF

/-! ## Dictionaries -/

theorem get_dictName (n t : Str) (p : Option Str) (D : Dict) : get (dictEntry n t p D) "name".toList = some n := rfl
theorem get_dictType (n t : Str) (p : Option Str) (D : Dict) : get (dictEntry n t p D) "type".toList = some t := rfl
theorem get_dictParent (n t : Str) (p : Option Str) (D : Dict) : get (dictEntry n t p D) "parent".toList = p := by
  cases p <;> rfl

theorem varsOf_dict (n t : Str) (p : Option Str) (D : Dict) : varsOf (dictEntry n t p D) = D.vars.map (varEntry true) := by
  unfold varsOf
  have : find (dictEntry n t p D) "variables".toList = some (node "variables".toList [] (D.vars.map (varEntry true))) := by
    unfold dictEntry find
    rw [kids_node, List.find?_append]
    have h1 : ((if D.subs = [] then [] else [leaf "sub_dictionaries".toList (join [' '] D.subs)]).find?
        fun k => tagOf k == "variables".toList) = none := by
      split <;> rfl
    rw [h1]
    rfl
  rw [this]
  rfl

theorem get_varName (f : Bool) (v : Var) : get (varEntry f v) "name".toList = some v.name := rfl

theorem get_varIntent (v : Var) (h : v.Ok) : get (varEntry true v) "intent".toList = v.intent := by
  unfold varEntry
  cases hi : v.intent with
  | some i => rfl
  | none =>
    show Option.map _ (List.find? (fun a => a.1 == "intent".toList) v.props) = none
    rw [Option.map_eq_none_iff, List.find?_eq_none]
    intro a ha
    simp only [beq_iff_eq]
    exact (h.props a ha).2.2.1

theorem get_varProt (v : Var) (h : v.Ok) : (get (varEntry true v) "protected".toList == some "True".toList) = true ↔ v.Prot := by
  have he : get (varEntry true v) "protected".toList = (v.props.find? fun a => a.1 == "protected".toList).map (·.2) := by
    unfold varEntry
    cases v.intent <;> rfl
  rw [he, beq_iff_eq]
  unfold Var.Prot
  constructor
  · intro hg
    rw [Option.map_eq_some_iff] at hg
    obtain ⟨a, h1, h2⟩ := hg
    have h3 : (a.1 == "protected".toList) = true := List.find?_some (p := fun a : Str × Str => a.1 == "protected".toList) h1
    have h4 := List.mem_of_find?_eq_some h1
    rw [← beq_iff_eq.1 h3, ← h2]
    exact h4
  · intro hm
    have hs : (v.props.find? fun a => a.1 == "protected".toList).isSome = true := by
      rw [List.find?_isSome]
      exact ⟨_, hm, by simp⟩
    obtain ⟨a, ha⟩ := Option.isSome_iff_exists.1 hs
    have h3 : (a.1 == "protected".toList) = true := List.find?_some (p := fun a : Str × Str => a.1 == "protected".toList) ha
    have h4 := List.mem_of_find?_eq_some ha
    have h5 := List.inj_on_of_nodup_map h.nodup h4 hm (beq_iff_eq.1 h3)
    rw [ha, h5]
    rfl

theorem protectedIn_dict {n t : Str} {p : Option Str} {D : Dict} (h : D.Ok) (v : Str) :
    protectedIn (dictEntry n t p D) v = true ↔ D.Prot v := by
  unfold protectedIn Dict.Prot
  rw [varsOf_dict, List.find?_map]
  have : ((fun x => get x "name".toList == some v) ∘ varEntry true) = fun x : Var => x.name == v := by
    funext x
    show (get (varEntry true x) "name".toList == some v) = (x.name == v)
    rw [get_varName]
    rfl
  rw [this]
  cases hf : D.vars.find? fun x => x.name == v with
  | none =>
    rw [List.find?_eq_none] at hf
    simp only [Option.map_none, Bool.false_eq_true, false_iff]
    rintro ⟨x, hx, rfl, _⟩
    exact hf x hx (by simp)
  | some x =>
    have h1 := List.mem_of_find?_eq_some hf
    have h2 : (x.name == v) = true := List.find?_some (p := fun x : Var => x.name == v) hf
    have h2 := beq_iff_eq.1 h2
    simp only [Option.map_some]
    rw [get_varProt x (h.vars x h1)]
    constructor
    · intro hp; exact ⟨x, h1, h2, hp⟩
    · rintro ⟨y, hy, hyv, hp⟩
      rw [List.inj_on_of_nodup_map h.nodup h1 hy (h2.trans hyv.symm)]
      exact hp

theorem namesOf_vars (l : List Var) : namesOf (l.map (varEntry true)) = l.map (·.name) := by
  unfold namesOf
  rw [List.filterMap_map]
  have : ((fun x => get x "name".toList) ∘ varEntry true) = fun v : Var => some v.name := by
    funext x
    rfl
  rw [this, List.filterMap_eq_map']

/-! ## Names of dictionaries -/

mutual
theorem objDicts_names : ∀ (o : Obj) (p : Str), ∀ k ∈ objDicts p o, (∃ n, get k "name".toList = some n ∧ DictName o n) ∧
    get k "type".toList ≠ some "group_call_list".toList
  | .scheme s, p => by
    intro k hk
    rw [objDicts] at hk
    unfold ownDicts at hk
    rcases List.mem_cons.1 hk with rfl | hk
    · exact ⟨⟨_, get_dictName .., .scheme⟩, by rw [get_dictType]; decide⟩
    · split at hk
      · cases hk
      · rw [List.mem_singleton] at hk
        subst hk
        exact ⟨⟨_, get_dictName .., .callList⟩, by rw [get_dictType]; decide⟩
  | .timeSplit n D ps, p => by
    intro k hk
    rw [objDicts] at hk
    rcases List.mem_cons.1 hk with rfl | hk
    · exact ⟨⟨_, get_dictName .., .timeSplit⟩, by rw [get_dictType]; decide⟩
    · obtain ⟨⟨m, h1, o, h2, h3⟩, h4⟩ := objsDicts_names ps n k hk
      exact ⟨⟨m, h1, .inTimeSplit h2 h3⟩, h4⟩
  | .subcycle n l D ps, p => by
    intro k hk
    rw [objDicts] at hk
    rcases List.mem_cons.1 hk with rfl | hk
    · exact ⟨⟨_, get_dictName .., .subcycle⟩, by rw [get_dictType]; decide⟩
    · obtain ⟨⟨m, h1, o, h2, h3⟩, h4⟩ := objsDicts_names ps n k hk
      exact ⟨⟨m, h1, .inSubcycle h2 h3⟩, h4⟩
  | .verticalLoop n l D ps, p => by
    intro k hk
    rw [objDicts] at hk
    rcases List.mem_cons.1 hk with rfl | hk
    · exact ⟨⟨_, get_dictName .., .verticalLoop⟩, by rw [get_dictType]; decide⟩
    · obtain ⟨⟨m, h1, o, h2, h3⟩, h4⟩ := objsDicts_names ps n k hk
      exact ⟨⟨m, h1, .inVerticalLoop h2 h3⟩, h4⟩
theorem objsDicts_names : ∀ (os : List Obj) (p : Str), ∀ k ∈ objsDicts p os,
    (∃ n, get k "name".toList = some n ∧ ∃ o ∈ os, DictName o n) ∧ get k "type".toList ≠ some "group_call_list".toList
  | [], p => by rw [objsDicts]; simp
  | o :: os, p => by
    intro k hk
    rw [objsDicts] at hk
    rcases List.mem_append.1 hk with hk | hk
    · obtain ⟨⟨n, h1, h2⟩, h3⟩ := objDicts_names o p k hk
      exact ⟨⟨n, h1, o, List.mem_cons_self, h2⟩, h3⟩
    · obtain ⟨⟨n, h1, o', h2, h2'⟩, h3⟩ := objsDicts_names os p k hk
      exact ⟨⟨n, h1, o', List.mem_cons_of_mem _ h2, h2'⟩, h3⟩
end

theorem suiteDicts_names {s : Suite} {k : Elem} (h : k ∈ suiteDicts s) : ∃ n, get k "name".toList = some n ∧ s.DictName n := by
  unfold suiteDicts at h
  rcases List.mem_cons.1 h with rfl | h
  · exact ⟨_, get_dictName .., Or.inl rfl⟩
  · rw [List.mem_flatMap] at h
    obtain ⟨g, hg, h⟩ := h
    unfold groupDicts at h
    rcases List.mem_append.1 h with h | h
    · unfold ownDicts at h
      rcases List.mem_cons.1 h with rfl | h
      · exact ⟨_, get_dictName .., Or.inr ⟨g, hg, Or.inl rfl⟩⟩
      · split at h
        · cases h
        · rw [List.mem_singleton] at h
          subst h
          exact ⟨_, get_dictName .., Or.inr ⟨g, hg, Or.inr (Or.inl rfl)⟩⟩
    · obtain ⟨⟨n, h1, h2⟩, _⟩ := objsDicts_names _ _ k h
      exact ⟨n, h1, Or.inr ⟨g, hg, Or.inr (Or.inr h2)⟩⟩

/-- The dictionary of the call list of a group. -/
def callDict (s : Suite) (g : Group) : Elem := dictEntry (callName g.name) "group_call_list".toList (some s.name) g.callList

theorem callList_iff {d : Data} {k : Elem} (ht : get k "type".toList = some "group_call_list".toList) :
    k ∈ allDicts d ↔ ∃ s ∈ d.suites, ∃ g ∈ s.groups, g.callList.vars ≠ [] ∧ k = callDict s g := by
  constructor
  · intro h
    unfold allDicts at h
    rcases List.mem_cons.1 h with rfl | h
    · rw [get_dictType] at ht; exact absurd ht (by decide)
    rcases List.mem_cons.1 h with rfl | h
    · rw [get_dictType] at ht; exact absurd ht (by decide)
    rw [List.mem_flatMap] at h
    obtain ⟨s, hs, h⟩ := h
    unfold suiteDicts at h
    rcases List.mem_cons.1 h with rfl | h
    · rw [get_dictType] at ht; exact absurd ht (by decide)
    rw [List.mem_flatMap] at h
    obtain ⟨g, hg, h⟩ := h
    unfold groupDicts at h
    rcases List.mem_append.1 h with h | h
    · unfold ownDicts at h
      rcases List.mem_cons.1 h with rfl | h
      · rw [get_dictType] at ht; exact absurd ht (by decide)
      · split at h
        · cases h
        · rename_i hv
          rw [List.mem_singleton] at h
          exact ⟨s, hs, g, hg, hv, h⟩
    · exact absurd ht (objsDicts_names _ _ k h).2
  · rintro ⟨s, hs, g, hg, hv, rfl⟩
    unfold allDicts
    refine List.mem_cons_of_mem _ (List.mem_cons_of_mem _ (List.mem_flatMap.2 ⟨s, hs, ?_⟩))
    unfold suiteDicts
    refine List.mem_cons_of_mem _ (List.mem_flatMap.2 ⟨g, hg, ?_⟩)
    unfold groupDicts ownDicts
    rw [if_neg hv]
    exact List.mem_append_left _ (List.mem_cons_of_mem _ (List.mem_singleton.2 rfl))

theorem group_unique {d : Data} (h : d.Distinct) {s s' : Suite} {g g' : Group} (hs : s ∈ d.suites) (hg : g ∈ s.groups)
    (hs' : s' ∈ d.suites) (hg' : g' ∈ s'.groups) (hn : g.name = g'.name) : s = s' ∧ g = g' := by
  have h1 : ((d.suites.flatMap fun s => s.groups.map fun g => (s, g)).map fun u => u.2.name).Nodup := by
    have := h.groups
    rw [List.map_flatMap]
    simp only [List.map_map, Function.comp_def]
    exact this
  have h2 : ∀ {s : Suite} {g : Group}, s ∈ d.suites → g ∈ s.groups →
      (s, g) ∈ d.suites.flatMap fun s => s.groups.map fun g => (s, g) := by
    intro s g a b
    rw [List.mem_flatMap]
    exact ⟨s, a, List.mem_map.2 ⟨g, b, rfl⟩⟩
  have h3 := List.inj_on_of_nodup_map h1 (h2 hs hg) (h2 hs' hg') hn
  injection h3 with h4 h5
  exact ⟨h4, h5⟩

theorem findDict_call {d : Data} (h : d.Distinct) {s : Suite} {g : Group} (hs : s ∈ d.suites) (hg : g ∈ s.groups) :
    findDict (table d) (some (callName g.name)) (some "group_call_list".toList) =
      if g.callList.vars = [] then none else some (callDict s g) := by
  unfold findDict
  rw [find_dicts, Option.bind_some, kids_node]
  simp only
  have key : ∀ k ∈ allDicts d, (get k "name".toList == some (callName g.name) &&
      get k "type".toList == some "group_call_list".toList) = true → g.callList.vars ≠ [] ∧ k = callDict s g := by
    intro k hk hp
    rw [Bool.and_eq_true, beq_iff_eq, beq_iff_eq] at hp
    obtain ⟨s', hs', g', hg', hv, rfl⟩ := (callList_iff hp.2).1 hk
    have hn := hp.1
    unfold callDict at hn
    rw [get_dictName] at hn
    injection hn with hn
    have hn : g'.name = g.name := List.append_cancel_right hn
    obtain ⟨rfl, rfl⟩ := group_unique h hs' hg' hs hg hn
    exact ⟨hv, rfl⟩
  split
  · rename_i hv
    rw [List.find?_eq_none]
    intro k hk hp
    exact (key k hk hp).1 hv
  · rename_i hv
    have hm : callDict s g ∈ allDicts d := (callList_iff (get_dictType ..)).2 ⟨s, hs, g, hg, hv, rfl⟩
    have hs' : ((allDicts d).find? fun k => get k "name".toList == some (callName g.name) &&
        get k "type".toList == some "group_call_list".toList).isSome = true := by
      rw [List.find?_isSome]
      refine ⟨_, hm, ?_⟩
      unfold callDict
      rw [get_dictName, get_dictType]
      simp
    obtain ⟨k, hk⟩ := Option.isSome_iff_exists.1 hs'
    rw [hk, (key k (List.mem_of_find?_eq_some hk) (List.find?_some (p := fun k =>
      get k "name".toList == some (callName g.name) && get k "type".toList == some "group_call_list".toList) hk)).2]

theorem findDict_suite {d : Data} (h : d.Distinct) {s : Suite} (hs : s ∈ d.suites) :
    findDict (table d) (some s.name) none = some (dictEntry s.name "suite".toList (some s.parent) s.dict) := by
  obtain ⟨a, b, hab⟩ := List.append_of_mem hs
  obtain ⟨h1, h2, h3⟩ := h.before a s b hab
  unfold findDict
  rw [find_dicts, Option.bind_some, kids_node]
  unfold allDicts
  simp only [Bool.and_true]
  rw [List.find?_cons_of_neg, List.find?_cons_of_neg, hab, List.flatMap_append, List.find?_append, List.flatMap_cons]
  · have : ((a.flatMap suiteDicts).find? fun k => get k "name".toList == some s.name) = none := by
      rw [List.find?_eq_none]
      intro k hk hp
      rw [List.mem_flatMap] at hk
      obtain ⟨t, ht, hk⟩ := hk
      obtain ⟨n, hn, hd⟩ := suiteDicts_names hk
      rw [hn, beq_iff_eq] at hp
      injection hp with hp
      subst hp
      exact h3 t ht hd
    rw [this, Option.none_or]
    unfold suiteDicts
    rw [List.cons_append, List.find?_cons_of_pos]
    rw [get_dictName]
    simp
  · rw [get_dictName, beq_iff_eq]
    intro hh
    injection hh with hh
    exact h2 hh.symm
  · rw [get_dictName, beq_iff_eq]
    intro hh
    injection hh with hh
    exact h1 hh.symm

theorem findDict_parent {d : Data} (h : d.Distinct) {s : Suite} (hs : s ∈ d.suites) :
    findDict (table d) (some s.parent) none = none := by
  obtain ⟨h1, h2, h3⟩ := h.parents s hs
  unfold findDict
  rw [find_dicts, Option.bind_some, kids_node, List.find?_eq_none]
  intro k hk hp
  simp only [Bool.and_true, beq_iff_eq] at hp
  unfold allDicts at hk
  rcases List.mem_cons.1 hk with rfl | hk
  · rw [get_dictName] at hp
    injection hp with hp
    exact h1 hp.symm
  rcases List.mem_cons.1 hk with rfl | hk
  · rw [get_dictName] at hp
    injection hp with hp
    exact h2 hp.symm
  rw [List.mem_flatMap] at hk
  obtain ⟨t, ht, hk⟩ := hk
  obtain ⟨n, hn, hd⟩ := suiteDicts_names hk
  rw [hn] at hp
  injection hp with hp
  subst hp
  exact h3 t ht hd

theorem findDict_host (d : Data) : findDict (table d) none (some "host".toList) =
    some (dictEntry d.hostName "host".toList none d.host) := rfl

/-! ## Protected variables -/

/-- Truth of a proposition. -/
noncomputable def truth (p : Prop) : Bool := @decide p (Classical.propDecidable p)

theorem truth_iff {p : Prop} : truth p = true ↔ p := by unfold truth; exact @decide_eq_true_iff p (Classical.propDecidable p)

theorem eq_truth {b : Bool} {p : Prop} (h : b = true ↔ p) : b = truth p := by
  rw [Bool.eq_iff_iff, truth_iff]; exact h

theorem isProtected_host {d : Data} (h : d.Ok) (v : Str) (f : Nat) :
    isProtected (table d) v (f + 1) (some (dictEntry d.hostName "host".toList none d.host)) = some (truth (d.host.Prot v)) := by
  rw [isProtected, eq_truth (protectedIn_dict h.host v)]
  have : parentDict (table d) (dictEntry d.hostName "host".toList none d.host) = none := by
    unfold parentDict
    rw [get_dictParent]
    rfl
  rw [this]
  cases truth (d.host.Prot v) with
  | true => rfl
  | false => cases f <;> rfl

theorem isProtected_call {d : Data} (h : d.Ok) (hd : d.Distinct) {s : Suite} {g : Group} (hs : s ∈ d.suites)
    (hg : g ∈ s.groups) (v : Str) (f : Nat) :
    isProtected (table d) v (f + 2) (some (callDict s g)) = some (truth (s.dict.Prot v ∨ g.callList.Prot v)) := by
  have hp1 : parentDict (table d) (callDict s g) = some (dictEntry s.name "suite".toList (some s.parent) s.dict) := by
    unfold parentDict callDict
    rw [get_dictParent, Option.bind_some, findDict_suite hd hs]
  have hp2 : parentDict (table d) (dictEntry s.name "suite".toList (some s.parent) s.dict) = none := by
    unfold parentDict
    rw [get_dictParent, Option.bind_some, findDict_parent hd hs]
  have he1 : protectedIn (callDict s g) v = true ↔ g.callList.Prot v := protectedIn_dict (h.groups s hs g hg).callList v
  have he2 : protectedIn (dictEntry s.name "suite".toList (some s.parent) s.dict) v = true ↔ s.dict.Prot v :=
    protectedIn_dict (h.dicts s hs) v
  rw [isProtected, hp1, isProtected, hp2]
  by_cases h1 : g.callList.Prot v
  · rw [if_pos (he1.2 h1), truth_iff.2 (Or.inr h1)]
  · rw [if_neg fun hh => h1 (he1.1 hh)]
    by_cases h2 : s.dict.Prot v
    · rw [if_pos (he2.2 h2), truth_iff.2 (Or.inl h2)]
    · rw [if_neg fun hh => h2 (he2.1 hh)]
      have : truth (s.dict.Prot v ∨ g.callList.Prot v) = false := by
        rw [Bool.eq_false_iff]
        intro hh
        rcases truth_iff.1 hh with hh | hh
        · exact h2 hh
        · exact h1 hh
      rw [this]
      cases f <;> rfl

theorem keepIf_eq {test : Str → Option Bool} {b : Str → Bool} {l : List Str} (h : ∀ v ∈ l, test v = some (b v)) :
    keepIf test l = some (l.filter fun v => !b v) := by
  induction l with
  | nil => rfl
  | cons v l ih =>
    rw [keepIf, h v (by simp), Option.bind_some, ih fun x hx => h x (by simp [hx]), Option.map_some, List.filter_cons]
    cases b v <;> rfl

/-! ## The lists -/

theorem leStr_antisymm {a b : Str} (h1 : RV.leStr a b = true) (h2 : RV.leStr b a = true) : a = b := by
  induction a generalizing b with
  | nil =>
    cases b with
    | nil => rfl
    | cons c b => rw [RV.leStr] at h2; cases h2
  | cons c a ih =>
    cases b with
    | nil => rw [RV.leStr] at h1; cases h1
    | cons c' b =>
      rw [RV.leStr] at h1 h2
      by_cases hc : c = c'
      · subst hc
        rw [if_pos rfl] at h1 h2
        rw [ih h1 h2]
      · rw [if_neg hc, decide_eq_true_iff] at h1
        rw [if_neg fun hh => hc hh.symm, decide_eq_true_iff] at h2
        omega

/-- There is only one such list. -/
theorem SortedSetOf.unique {l l' : List Str} {P : Str → Prop} (h : SortedSetOf l P) (h' : SortedSetOf l' P) : l = l' := by
  induction l generalizing l' P with
  | nil =>
    cases l' with
    | nil => rfl
    | cons b t =>
      have := (h.2.2 b).2 ((h'.2.2 b).1 (by simp))
      cases this
  | cons a s ih =>
    cases l' with
    | nil =>
      have := (h'.2.2 a).2 ((h.2.2 a).1 (by simp))
      cases this
    | cons b t =>
      obtain ⟨o1, n1, m1⟩ := h
      obtain ⟨o2, n2, m2⟩ := h'
      unfold Ordered at o1 o2
      rw [List.pairwise_cons] at o1 o2
      rw [List.nodup_cons] at n1 n2
      have hab : a = b := by
        have ha : a ∈ b :: t := (m2 a).2 ((m1 a).1 (by simp))
        have hb : b ∈ a :: s := (m1 b).2 ((m2 b).1 (by simp))
        rcases List.mem_cons.1 ha with hh | hh
        · exact hh
        rcases List.mem_cons.1 hb with hh' | hh'
        · exact hh'.symm
        exact leStr_antisymm (o1.1 b hh') (o2.1 a hh)
      subst hab
      congr 1
      refine ih (P := fun n => P n ∧ n ≠ a) ⟨o1.2, n1.2, fun n => ?_⟩ ⟨o2.2, n2.2, fun n => ?_⟩
      · show n ∈ s ↔ P n ∧ n ≠ a
        rw [← m1 n, List.mem_cons]
        constructor
        · intro hn; exact ⟨Or.inr hn, fun hh => n1.1 (hh ▸ hn)⟩
        · rintro ⟨hn | hn, hne⟩
          · exact absurd hn hne
          · exact hn
      · show n ∈ t ↔ P n ∧ n ≠ a
        rw [← m2 n, List.mem_cons]
        constructor
        · intro hn; exact ⟨Or.inr hn, fun hh => n2.1 (hh ▸ hn)⟩
        · rintro ⟨hn | hn, hne⟩
          · exact absurd hn hne
          · exact hn

theorem hostVariables_table {d : Data} (h : d.Ok) (f : Nat) (x : Bool) : ∃ l, hostVariables (f + 1) (table d) x = some l ∧
    SortedSetOf l fun n => ∃ v ∈ d.host.vars, v.name = n ∧ (x = true → ¬ v.Prot) := by
  unfold hostVariables
  rw [findDict_host]
  simp only
  rw [varsOf_dict, namesOf_vars, keepIf_eq (b := fun v => x && truth (d.host.Prot v))]
  · refine ⟨_, rfl, sortedSet_spec ?_⟩
    intro n
    rw [List.mem_filter, List.mem_map]
    constructor
    · rintro ⟨⟨v, hv, rfl⟩, hp⟩
      refine ⟨v, hv, rfl, ?_⟩
      intro hx hpr
      rw [hx, truth_iff.2 ⟨v, hv, rfl, hpr⟩] at hp
      cases hp
    · rintro ⟨v, hv, rfl, hp⟩
      refine ⟨⟨v, hv, rfl⟩, ?_⟩
      cases x with
      | false => rfl
      | true =>
        rw [Bool.true_and, Bool.not_eq_true', Bool.eq_false_iff]
        intro hh
        obtain ⟨w, hw, hwn, hwp⟩ := truth_iff.1 hh
        rw [List.inj_on_of_nodup_map h.host.nodup hw hv hwn] at hwp
        exact hp rfl hwp
  · intro v _
    cases x with
    | false => rfl
    | true =>
      rw [if_pos rfl, isProtected_host h]
      rfl

theorem hostProtected_table {d : Data} (h : d.Ok) (f : Nat) : ∃ l, hostProtected (f + 1) (table d) = some l ∧
    ∀ n, n ∈ l ↔ d.host.Prot n := by
  unfold hostProtected
  rw [findDict_host]
  simp only
  rw [varsOf_dict, namesOf_vars, keepIf_eq (b := fun v => !truth (d.host.Prot v))]
  · refine ⟨_, rfl, ?_⟩
    intro n
    rw [List.mem_filter, List.mem_map, Bool.not_not, truth_iff]
    constructor
    · rintro ⟨_, hp⟩; exact hp
    · rintro ⟨v, hv, rfl, hp⟩
      exact ⟨⟨v, hv, rfl⟩, v, hv, rfl, hp⟩
  · intro v _
    rw [isProtected_host h]
    rfl

theorem intentOk_iff {it : IntentType} {i : Option Str} :
    intentAllowed it i = true ↔ IntentOk it i := by
  cases i with
  | none => cases it <;> simp [IntentOk, intentAllowed]
  | some i =>
    unfold intentAllowed
    rw [decide_eq_true_iff]
    cases it <;> unfold allowed IntentOk <;> simp only [List.mem_cons, List.not_mem_nil, or_false, Option.some.injEq]

theorem groupVariables_table {d : Data} (h : d.Ok) (hd : d.Distinct) {s : Suite} {g : Group} (hs : s ∈ d.suites)
    (hg : g ∈ s.groups) (f : Nat) (x : Bool) (it : IntentType) {ex : List Str} (hex : ∀ n, n ∈ ex ↔ x = true ∧ d.host.Prot n) :
    ∃ l, groupVariables (f + 2) (table d) x it ex g.name = some l ∧ ∀ n, n ∈ l ↔ ∃ v ∈ g.callList.vars, v.name = n ∧
      IntentOk it v.intent ∧ (x = true → ¬ d.host.Prot n ∧ ¬ s.dict.Prot n ∧ ¬ g.callList.Prot n) := by
  unfold groupVariables
  rw [findDict_call hd hs hg]
  by_cases hv : g.callList.vars = []
  · rw [if_pos hv, hv]
    exact ⟨[], rfl, by simp⟩
  · rw [if_neg hv]
    simp only
    have hvars : varsOf (callDict s g) = g.callList.vars.map (varEntry true) := varsOf_dict ..
    have hok := (h.groups s hs g hg).callList
    rw [hvars, namesOf_vars, keepIf_eq (b := fun v => x && truth (d.host.Prot v ∨ s.dict.Prot v ∨ g.callList.Prot v))]
    · refine ⟨_, rfl, ?_⟩
      intro n
      rw [List.mem_filter, decide_eq_true_iff, List.mem_filter]
      have hfil : (g.callList.vars.map (varEntry true)).filter (fun x => intentAllowed it (get x "intent".toList)) =
          (g.callList.vars.filter fun v => intentAllowed it v.intent).map (varEntry true) := by
        rw [List.filter_map]
        congr 1
        apply List.filter_congr
        intro v hvm
        show intentAllowed it (get (varEntry true v) "intent".toList) = _
        rw [get_varIntent v (hok.vars v hvm)]
      rw [hfil, namesOf_vars]
      have hnot : (!(x && truth (d.host.Prot n ∨ s.dict.Prot n ∨ g.callList.Prot n))) = true ↔
          (x = true → ¬ d.host.Prot n ∧ ¬ s.dict.Prot n ∧ ¬ g.callList.Prot n) := by
        cases x with
        | false => simp
        | true =>
          rw [Bool.true_and, Bool.not_eq_true', Bool.eq_false_iff, ne_eq, truth_iff]
          simp [not_or]
      constructor
      · rintro ⟨h1, _, h3⟩
        rw [List.mem_map] at h1
        obtain ⟨v, hvm, rfl⟩ := h1
        rw [List.mem_filter] at hvm
        exact ⟨v, hvm.1, rfl, intentOk_iff.1 hvm.2, hnot.1 h3⟩
      · rintro ⟨v, hvm, rfl, hi, hp⟩
        exact ⟨List.mem_map.2 ⟨v, List.mem_filter.2 ⟨hvm, intentOk_iff.2 hi⟩, rfl⟩, List.mem_map.2 ⟨v, hvm, rfl⟩, hnot.2 hp⟩
    · intro v _
      cases x with
      | false => rfl
      | true =>
        rw [if_pos rfl, Bool.true_and]
        by_cases hh : v ∈ ex
        · rw [if_pos hh, truth_iff.2 (Or.inl ((hex v).1 hh).2)]
        · rw [if_neg hh, isProtected_call h hd hs hg]
          congr 1
          rw [Bool.eq_iff_iff, truth_iff, truth_iff]
          constructor
          · exact Or.inr
          · rintro (hp | hp)
            · exact absurd ((hex v).2 ⟨rfl, hp⟩) hh
            · exact hp

theorem unionAll_spec {f : Str → Option (List Str)} {P : Str → Str → Prop} {l : List Str}
    (h : ∀ g ∈ l, ∃ r, f g = some r ∧ ∀ n, n ∈ r ↔ P g n) : ∃ r, unionAll f l = some r ∧ ∀ n, n ∈ r ↔ ∃ g ∈ l, P g n := by
  induction l with
  | nil => exact ⟨[], rfl, by simp⟩
  | cons g l ih =>
    obtain ⟨r, hr, h1⟩ := h g (by simp)
    obtain ⟨r', hr', h2⟩ := ih fun x hx => h x (by simp [hx])
    refine ⟨r ++ r', ?_, ?_⟩
    · rw [unionAll, hr, Option.bind_some, hr']
      rfl
    · intro n
      rw [List.mem_append, h1, h2]
      simp

/-- The groups of a suite that are written. -/
def writtenGroups (d : Data) (suite : Str) : List Group :=
  (d.suites.filter fun s => s.name == suite).flatMap fun s => s.groups.filter fun g => !g.parts.isEmpty

theorem groupNames_table (d : Data) (suite : Str) : groupNames (table d) suite =
    (writtenGroups d suite).map fun g => some g.name := by
  unfold groupNames writtenGroups
  rw [suitesOf_table, List.filter_map, List.flatMap_map, List.map_flatMap]
  have h1 : ((fun s => get s "name".toList == some suite) ∘ suiteEntry) = fun s : Suite => s.name == suite := by
    funext s
    rfl
  rw [h1]
  congr 1
  funext s
  have h2 : kidsOf (suiteEntry s) = (s.groups.filter fun g => !g.parts.isEmpty).map groupEntry := rfl
  rw [h2, List.filter_map]
  have h3 : ((fun k => tagOf k == "group".toList) ∘ groupEntry) = fun _ : Group => true := by
    funext g
    rfl
  rw [h3, List.filter_true, List.map_map]
  rfl

theorem mem_writtenGroups {d : Data} {suite : Str} {g : Group} : g ∈ writtenGroups d suite ↔
    ∃ s ∈ d.suites, s.name = suite ∧ g ∈ s.groups ∧ g.parts ≠ [] := by
  unfold writtenGroups
  rw [List.mem_flatMap]
  constructor
  · rintro ⟨s, hs, hg⟩
    rw [List.mem_filter] at hs hg
    refine ⟨s, hs.1, beq_iff_eq.1 hs.2, hg.1, ?_⟩
    intro he
    rw [he] at hg
    exact absurd hg.2 (by simp)
  · rintro ⟨s, hs, hn, hg, hp⟩
    refine ⟨s, List.mem_filter.2 ⟨hs, by rw [hn]; simp⟩, List.mem_filter.2 ⟨hg, ?_⟩⟩
    cases hq : g.parts with
    | nil => exact absurd hq hp
    | cons a b => rfl

theorem variableList_table {d : Data} (h : d.Ok) (hd : d.Distinct) (f : Nat) (suite : Str) (it : IntentType) (x : Bool) :
    ∃ l, variableList (f + 2) (table d) suite it x = some l ∧ SortedSetOf l (Needs d it suite x) := by
  unfold variableList
  have hex : ∃ ex, (if x then hostProtected (f + 2) (table d) else some []) = some ex ∧
      ∀ n, n ∈ ex ↔ x = true ∧ d.host.Prot n := by
    cases x with
    | false => exact ⟨[], rfl, by simp⟩
    | true =>
      obtain ⟨l, h1, h2⟩ := hostProtected_table h (f + 1)
      exact ⟨l, h1, fun n => by rw [h2]; simp⟩
  obtain ⟨ex, he, hex⟩ := hex
  rw [he, Option.bind_some, groupNames_table, allSome_map (g := fun g : Group => g.name) fun _ _ => rfl, Option.bind_some]
  obtain ⟨r, hr, hm⟩ := unionAll_spec (f := groupVariables (f + 2) (table d) x it ex)
    (l := (writtenGroups d suite).map fun g => g.name)
    (P := fun gn n => ∃ s ∈ d.suites, ∃ g ∈ s.groups, g.name = gn ∧ ∃ v ∈ g.callList.vars, v.name = n ∧
      IntentOk it v.intent ∧ (x = true → ¬ d.host.Prot n ∧ ¬ s.dict.Prot n ∧ ¬ g.callList.Prot n)) (by
    intro gn hgn
    rw [List.mem_map] at hgn
    obtain ⟨g, hg, rfl⟩ := hgn
    obtain ⟨s, hs, _, hgs, _⟩ := mem_writtenGroups.1 hg
    obtain ⟨l, hl, hm⟩ := groupVariables_table h hd hs hgs f x it hex
    refine ⟨l, hl, fun n => ?_⟩
    rw [hm]
    constructor
    · intro hv; exact ⟨s, hs, g, hgs, rfl, hv⟩
    · rintro ⟨s', hs', g', hg', hn, hv⟩
      obtain ⟨rfl, rfl⟩ := group_unique hd hs' hg' hs hgs hn
      exact hv)
  refine ⟨_, by rw [hr]; rfl, sortedSet_spec fun n => ?_⟩
  rw [hm]
  unfold Needs
  constructor
  · rintro ⟨gn, hgn, s, hs, g, hg, rfl, hv⟩
    rw [List.mem_map] at hgn
    obtain ⟨g', hg', hn⟩ := hgn
    obtain ⟨s', hs', hsn, hgs', hp⟩ := mem_writtenGroups.1 hg'
    obtain ⟨rfl, rfl⟩ := group_unique hd hs' hgs' hs hg hn
    exact ⟨s', hs', hsn, g', hgs', hp, hv⟩
  · rintro ⟨s, hs, hsn, g, hg, hp, hv⟩
    exact ⟨g.name, List.mem_map.2 ⟨g, mem_writtenGroups.2 ⟨s, hs, hsn, hg, hp⟩, rfl⟩, s, hs, g, hg, rfl, hv⟩

/-- C66: the data table is written, and the reports about it are what the data say. -/
theorem C66_reports_partial {d : Data} (h : d.Ok) (hd : d.Distinct) : ∃ text, file d = some text ∧
    ∀ (a : Action) (exclude : Bool), ∃ l, Returns d exclude a l ∧
      ∀ (fuel : Nat) (sep : Str), 2 ≤ fuel → sep ≠ [] → report fuel text a sep exclude = some (join sep l) := by
  obtain ⟨text, e', hf, hr, hi⟩ := file_items h (leafFiles_table d) (trimmedFiles_table h)
  refine ⟨text, hf, ?_⟩
  intro a exclude
  have key : ∃ l, Returns d exclude a l ∧ ∀ f, items (f + 2) (table d) exclude a = some l := by
    cases a with
    | ccppFiles => exact ⟨utilities d ++ d.hostFiles ++ d.suiteFiles, rfl, fun f => files_all h⟩
    | hostFiles => exact ⟨_, rfl, fun f => files_one h.hostFiles rfl⟩
    | suiteFiles => exact ⟨_, rfl, fun f => files_one h.suiteFiles rfl⟩
    | utilityFiles =>
      refine ⟨utilities d, rfl, fun f => ?_⟩
      exact files_one (t := "utilities".toList) (fun x hx => utilities_ok h hx) rfl
    | processList =>
      obtain ⟨l, h1, h2⟩ := processList_table h
      exact ⟨l, h2, fun f => h1⟩
    | moduleList =>
      obtain ⟨l, h1, h2⟩ := moduleList_table h
      exact ⟨l, h2, fun f => h1⟩
    | dependencies =>
      obtain ⟨l, h1, h2⟩ := dependencies_table h
      exact ⟨l, h2, fun f => h1⟩
    | suiteList => exact ⟨_, rfl, fun f => suiteList_table d⟩
    | varList it s =>
      obtain ⟨l, _, h2⟩ := variableList_table h hd 0 s it exclude
      refine ⟨l, h2, fun f => ?_⟩
      obtain ⟨l', h1', h2'⟩ := variableList_table h hd f s it exclude
      rw [h2.unique h2']
      exact h1'
    | hostVariables =>
      obtain ⟨l, _, h2⟩ := hostVariables_table h 0 exclude
      refine ⟨l, h2, fun f => ?_⟩
      obtain ⟨l', h1', h2'⟩ := hostVariables_table h (f + 1) exclude
      rw [h2.unique h2']
      exact h1'
  obtain ⟨l, h1, h2⟩ := key
  refine ⟨l, h1, ?_⟩
  intro fuel sep hfu hsep
  obtain ⟨f, rfl⟩ : ∃ f, fuel = f + 2 := ⟨fuel - 2, by omega⟩
  unfold report
  rw [if_neg hsep, hr, Option.bind_some, hi, h2 f]
  rfl

end Ccpp.DT
