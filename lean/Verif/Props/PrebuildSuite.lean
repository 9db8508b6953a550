import Verif.Spec.PrebuildSuite
import Verif.Props.PrebuildMain
/-!
# C70: the suites that prebuild reads
-/
namespace Ccpp.PB

theorem copies_eq (l : List Str) (n : Nat) : copies l n = (List.replicate n l).flatten := by
  induction n with
  | zero => rfl
  | succ n ih => rw [copies, ih, List.replicate_succ, List.flatten_cons]

theorem schemeLoop_spec {sx : SubXml} {n : Int} (hn : sx.loop = some n) : ∀ {ss : List Str} {st : PSt},
    schemeLoop sx st ss = some { st with
      schemes := st.schemes ++ ss
      subroutines := st.subroutines ++ ss.flatMap fun s => stages.map fun g => s ++ "_".toList ++ g.2
      loop := if ss = [] then st.loop else some n }
  | [], st => by simp [schemeLoop]
  | s :: ss, st => by
    rw [schemeLoop, hn, Option.bind_some, schemeLoop_spec hn]
    generalize "_".toList = u
    simp only [List.append_assoc, List.singleton_append, List.flatMap_cons]
    cases ss <;> simp

theorem dappend_nil (t : List (Str × List Str)) (g : Str) : dappend t g [] = t := by
  unfold dappend
  induction t with
  | nil => rfl
  | cons e t ih =>
    rw [List.map_cons, ih]
    split
    · rename_i h; rw [List.append_nil, ← h]
    · rfl

theorem dappend_dappend (t : List (Str × List Str)) (g : Str) (a b : List Str) :
    dappend (dappend t g a) g b = dappend t g (a ++ b) := by
  unfold dappend
  rw [List.map_map]
  apply List.map_congr_left
  intro e _
  by_cases h : e.1 = g
  · simp [h]
  · simp [h]

/-- The schemes and loops of subcycles in which nothing is missing. -/
theorem subLoop_spec {make : Bool} {g : Str} : ∀ {sxs : List SubXml} {st : PSt} {acc : List (Int × List Str)},
    (∀ sx ∈ sxs, sx.loop ≠ none ∧ sx.schemes ≠ []) →
    ∃ lp, subLoop make g st acc sxs = some ({ st with
      schemes := st.schemes ++ sxs.flatMap (·.schemes)
      subroutines := st.subroutines ++ (sxs.flatMap (·.schemes)).flatMap fun s => stages.map fun g => s ++ "_".toList ++ g.2
      tree := if make then dappend st.tree g (sxs.flatMap fun sx => (List.replicate (sx.loop.getD 0).toNat sx.schemes).flatten)
        else st.tree
      loop := lp }, acc ++ sxs.map fun sx => (sx.loop.getD 0, sx.schemes))
  | [], st, acc, _ => by
    refine ⟨st.loop, ?_⟩
    rw [subLoop]
    simp [dappend_nil]
  | sx :: sxs, st, acc, h => by
    obtain ⟨h1, h2⟩ := h sx (by simp)
    cases hn : sx.loop with
    | none => exact absurd hn h1
    | some n =>
      rw [subLoop, schemeLoop_spec hn, Option.bind_some, if_neg h2, Option.bind_some]
      cases make with
      | false =>
        rw [callTree, if_neg (by simp), Option.bind_some]
        obtain ⟨lp, ih⟩ := subLoop_spec (make := false) (g := g) (sxs := sxs) (st := { st with
          schemes := st.schemes ++ sx.schemes
          subroutines := st.subroutines ++ sx.schemes.flatMap fun s => stages.map fun g => s ++ "_".toList ++ g.2
          loop := some n }) (acc := acc ++ [(n, sx.schemes)]) (fun x hx => h x (by simp [hx]))
        refine ⟨lp, ?_⟩
        rw [ih]
        generalize "_".toList = u
        simp [List.append_assoc, hn]
      | true =>
        rw [callTree, if_pos rfl, hn, Option.map_some, Option.bind_some]
        obtain ⟨lp, ih⟩ := subLoop_spec (make := true) (g := g) (sxs := sxs) (st := { st with
          schemes := st.schemes ++ sx.schemes
          subroutines := st.subroutines ++ sx.schemes.flatMap fun s => stages.map fun g => s ++ "_".toList ++ g.2
          tree := dappend st.tree g (copies sx.schemes n.toNat)
          loop := if n > 0 then some (n - 1) else some n }) (acc := acc ++ [(n, sx.schemes)]) (fun x hx => h x (by simp [hx]))
        refine ⟨lp, ?_⟩
        rw [ih]
        generalize "_".toList = u
        simp [List.append_assoc, hn, dappend_dappend, copies_eq]

/-- The schemes of a child. -/
def childSchemes (c : Child) : List Str :=
  match c.tag with
  | .group => c.subs.flatMap (·.schemes)
  | _ => [c.text]

/-- The subroutines of a child. -/
def childSubs (c : Child) : List Str :=
  match c.tag with
  | .init => [c.text ++ "_".toList ++ "init".toList]
  | .finalize => [c.text ++ "_".toList ++ "finalize".toList]
  | .group => (c.subs.flatMap (·.schemes)).flatMap fun s => stages.map fun g => s ++ "_".toList ++ g.2

/-- The effect of a child on the call tree. -/
def childTree (make : Bool) (c : Child) (t : List (Str × List Str)) : List (Str × List Str) :=
  let t' := dset t (c.name.getD []) []
  if make = true ∧ c.tag = .group then dappend t' (c.name.getD []) (unrolled c) else t'

theorem childStep_spec {make : Bool} {st : PSt} {c : Child} (h : c.name ≠ none)
    (hs : c.tag = .group → ∀ sx ∈ c.subs, sx.loop ≠ none ∧ sx.schemes ≠ []) :
    ∃ lp, childStep make st c = some ⟨st.schemes ++ childSchemes c, st.subroutines ++ childSubs c,
      st.groups ++ [groupOf c], childTree make c st.tree, lp⟩ := by
  cases hn : c.name with
  | none => exact absurd hn h
  | some g =>
    unfold childStep childSchemes childSubs groupOf childTree unrolled
    rw [hn, Option.bind_some]
    cases ht : c.tag with
    | init => exact ⟨st.loop, by simp⟩
    | finalize => exact ⟨st.loop, by simp⟩
    | group =>
      obtain ⟨lp, hh⟩ := subLoop_spec (make := make) (g := g) (st := { st with tree := dset st.tree g [] }) (acc := []) (hs ht)
      refine ⟨lp, ?_⟩
      simp only
      rw [hh]
      cases make <;> simp

theorem childLoop_spec {make : Bool} : ∀ {cs : List Child} {st : PSt},
    (∀ c ∈ cs, c.name ≠ none ∧ (c.tag = .group → ∀ sx ∈ c.subs, sx.loop ≠ none ∧ sx.schemes ≠ [])) →
    ∃ lp, childLoop make st cs = some { schemes := st.schemes ++ cs.flatMap childSchemes
                                        subroutines := st.subroutines ++ cs.flatMap childSubs
                                        groups := st.groups ++ cs.map groupOf
                                        tree := cs.foldl (fun t c => childTree make c t) st.tree
                                        loop := lp }
  | [], st, _ => ⟨st.loop, by simp [childLoop]⟩
  | c :: cs, st, h => by
    obtain ⟨lp, h1⟩ := childStep_spec (make := make) (st := st) (h c (by simp)).1 (h c (by simp)).2
    obtain ⟨lp', h2⟩ := childLoop_spec (make := make) (cs := cs) (st := { schemes := st.schemes ++ childSchemes c
                                                                          subroutines := st.subroutines ++ childSubs c
                                                                          groups := st.groups ++ [groupOf c]
                                                                          tree := childTree make c st.tree
                                                                          loop := lp }) (fun x hx => h x (by simp [hx]))
    refine ⟨lp', ?_⟩
    rw [childLoop, h1, Option.bind_some, h2]
    simp [List.append_assoc]

theorem nameOk_iff {x : SuiteXml} : suiteNameOk x = true ↔ NameOk x := by
  unfold suiteNameOk NameOk
  generalize ".xml".toList = a
  generalize "suite_".toList = b
  simp only [Bool.and_eq_true, Bool.or_eq_true, beq_iff_eq, decide_eq_true_eq]

/-- What is read from a regular suite definition. -/
theorem parse_spec {make : Bool} {x : SuiteXml} (hr : Regular x) (hn : NameOk x) :
    parseSuite make x = some (some ⟨x.name, (x.children.flatMap childSchemes).eraseDups, (x.children.flatMap childSubs).eraseDups,
      x.children.map groupOf, x.children.foldl (fun t c => childTree make c t) []⟩) := by
  obtain ⟨lp, h⟩ := childLoop_spec (make := make) (cs := x.children) (st := ⟨[], [], [], [], none⟩) hr
  unfold parseSuite
  rw [if_pos (nameOk_iff.2 hn), h]
  rfl

theorem mem_childSchemes {c : Child} {n : Str} : n ∈ childSchemes c ↔
    (c.tag = .group ∧ ∃ sx ∈ c.subs, n ∈ sx.schemes) ∨ (c.tag = .init ∧ c.text = n) ∨ (c.tag = .finalize ∧ c.text = n) := by
  unfold childSchemes
  cases c.tag with
  | init => simp [eq_comm]
  | finalize => simp [eq_comm]
  | group => simp

theorem mem_schemes {x : SuiteXml} {n : Str} : n ∈ x.children.flatMap childSchemes ↔ InSuite x n := by
  rw [List.mem_flatMap]
  unfold InSuite InGroup IsInit IsFinalize
  constructor
  · rintro ⟨c, hc, h⟩
    rcases mem_childSchemes.1 h with h | h | h
    · exact Or.inl ⟨c, hc, h⟩
    · exact Or.inr (Or.inl ⟨c, hc, h⟩)
    · exact Or.inr (Or.inr ⟨c, hc, h⟩)
  · rintro (⟨c, hc, h⟩ | ⟨c, hc, h⟩ | ⟨c, hc, h⟩)
    · exact ⟨c, hc, mem_childSchemes.2 (Or.inl h)⟩
    · exact ⟨c, hc, mem_childSchemes.2 (Or.inr (Or.inl h))⟩
    · exact ⟨c, hc, mem_childSchemes.2 (Or.inr (Or.inr h))⟩

/-! ## The call tree -/

theorem dset_new {t : List (Str × List Str)} {g : Str} (h : ∀ e ∈ t, e.1 ≠ g) (v : List Str) : dset t g v = t ++ [(g, v)] := by
  unfold dset
  rw [if_neg]
  rw [List.any_eq_true]
  rintro ⟨e, he, h'⟩
  exact h e he (by simpa using h')

theorem dappend_last {t : List (Str × List Str)} {g : Str} (h : ∀ e ∈ t, e.1 ≠ g) (v w : List Str) :
    dappend (t ++ [(g, v)]) g w = t ++ [(g, v ++ w)] := by
  unfold dappend
  rw [List.map_append]
  congr 1
  · conv => rhs; rw [← List.map_id t]
    apply List.map_congr_left
    intro e he
    rw [if_neg (h e he)]; rfl
  · simp

theorem tree_spec : ∀ {cs : List Child} {t : List (Str × List Str)}, (∀ c ∈ cs, ∀ e ∈ t, e.1 ≠ c.name.getD []) →
    (cs.map (·.name.getD [])).Nodup →
    cs.foldl (fun t c => childTree true c t) t = t ++ cs.map fun c => (c.name.getD [], unrolled c)
  | [], t, _, _ => by simp
  | c :: cs, t, h, hn => by
    rw [List.map_cons, List.nodup_cons] at hn
    have hc : childTree true c t = t ++ [(c.name.getD [], unrolled c)] := by
      unfold childTree
      simp only
      rw [dset_new (h c (by simp))]
      split
      · rw [dappend_last (h c (by simp)), List.nil_append]
      · rename_i hh
        have : unrolled c = [] := by
          unfold unrolled
          cases ht : c.tag with
          | group => exact absurd ⟨trivial, ht⟩ hh
          | init => rfl
          | finalize => rfl
        rw [this]
    rw [List.foldl_cons, hc, tree_spec]
    · rw [List.append_assoc]; rfl
    · intro d hd e he
      rcases List.mem_append.1 he with he | he
      · exact h d (by simp [hd]) e he
      · have : e = (c.name.getD [], unrolled c) := by simpa using he
        subst this
        intro h'
        exact hn.1 (List.mem_map.2 ⟨d, hd, h'.symm⟩)
    · exact hn.2

/-- **C70**, partial: a regular suite definition (nothing missing, no empty subcycle) is read as it is written: the groups with
their subcycles, the set of the schemes, and the sequence of the calls of every group if the names of the groups differ. -/
theorem C70_parse_partial {x : SuiteXml} (hr : Regular x) (make : Bool) :
    (¬ NameOk x → parseSuite make x = some none) ∧
    (NameOk x → ∃ s, parseSuite make x = some (some s) ∧ s.name = x.name ∧ s.groups = x.children.map groupOf ∧
      s.schemes.Nodup ∧ (∀ n, n ∈ s.schemes ↔ InSuite x n) ∧
      ((x.children.map (·.name.getD [])).Nodup → make = true →
        s.tree = x.children.map fun c => (c.name.getD [], unrolled c))) := by
  constructor
  · intro hn
    unfold parseSuite
    rw [if_neg (fun h => hn (nameOk_iff.1 h))]
  · intro hn
    refine ⟨_, parse_spec hr hn, rfl, rfl, DT.nodup_eraseDups _ _ (Nat.le_refl _), ?_, ?_⟩
    · intro n
      rw [List.mem_eraseDups]
      exact mem_schemes
    · rintro hd rfl
      change x.children.foldl (fun t c => childTree true c t) [] = _
      rw [tree_spec (by intro c _ e he; cases he) hd, List.nil_append]

/-- The subroutines in the suite. -/
theorem mem_subroutines {x : SuiteXml} {n a : Str} (ha : '_' ∉ a) :
    (n ++ "_".toList ++ a) ∈ x.children.flatMap childSubs ↔
      (InGroup x n ∧ ∃ g ∈ stages, g.2 = a) ∨ (IsInit x n ∧ a = "init".toList) ∨ (IsFinalize x n ∧ a = "finalize".toList) := by
  have inj : ∀ {p q b : Str}, '_' ∉ b → p ++ "_".toList ++ a = q ++ "_".toList ++ b → p = q ∧ a = b := by
    intro p q b hb h
    change p ++ ['_'] ++ a = q ++ ['_'] ++ b at h
    have hrev := congrArg List.reverse h
    simp only [List.reverse_append, List.reverse_cons, List.reverse_nil, List.nil_append, List.append_assoc,
      List.singleton_append] at hrev
    have key : ∀ {u v : Str} {s t : Str}, '_' ∉ u → '_' ∉ v → u ++ '_' :: s = v ++ '_' :: t → u = v ∧ s = t := by
      intro u
      induction u with
      | nil =>
        intro v s t _ hv he
        cases v with
        | nil => simpa using he
        | cons c v =>
          simp only [List.nil_append, List.cons_append, List.cons.injEq] at he
          exact absurd (he.1 ▸ List.mem_cons_self) hv
      | cons c u ih =>
        intro v s t hu hv he
        cases v with
        | nil =>
          simp only [List.nil_append, List.cons_append, List.cons.injEq] at he
          exact absurd (he.1 ▸ List.mem_cons_self) hu
        | cons d v =>
          simp only [List.cons_append, List.cons.injEq] at he
          obtain ⟨e1, e2⟩ := ih (fun h => hu (List.mem_cons_of_mem _ h)) (fun h => hv (List.mem_cons_of_mem _ h)) he.2
          exact ⟨by rw [he.1, e1], e2⟩
    obtain ⟨e1, e2⟩ := key (by simpa using ha) (by simpa using hb) hrev
    exact ⟨List.reverse_inj.1 e2, List.reverse_inj.1 e1⟩
  have hst : ∀ g ∈ stages, '_' ∉ g.2 := by decide
  have h1 : '_' ∉ "init".toList := by decide
  have h2 : '_' ∉ "finalize".toList := by decide
  rw [List.mem_flatMap]
  unfold InGroup IsInit IsFinalize
  generalize hI : "init".toList = I at *
  generalize hF : "finalize".toList = F at *
  constructor
  · rintro ⟨c, hc, h⟩
    unfold childSubs at h
    rw [hI, hF] at h
    cases ht : c.tag with
    | init =>
      rw [ht] at h
      obtain ⟨e1, e2⟩ := inj h1 (List.mem_singleton.1 h)
      exact Or.inr (Or.inl ⟨⟨c, hc, ht, e1.symm⟩, e2⟩)
    | finalize =>
      rw [ht] at h
      obtain ⟨e1, e2⟩ := inj h2 (List.mem_singleton.1 h)
      exact Or.inr (Or.inr ⟨⟨c, hc, ht, e1.symm⟩, e2⟩)
    | group =>
      rw [ht] at h
      obtain ⟨s, hs, h⟩ := List.mem_flatMap.1 h
      obtain ⟨g, hg, h⟩ := List.mem_map.1 h
      obtain ⟨e1, e2⟩ := inj (hst g hg) h.symm
      subst e1
      obtain ⟨sx, hsx, hs⟩ := List.mem_flatMap.1 hs
      exact Or.inl ⟨⟨c, hc, ht, sx, hsx, hs⟩, g, hg, e2.symm⟩
  · rintro (⟨⟨c, hc, ht, sx, hsx, hs⟩, g, hg, rfl⟩ | ⟨⟨c, hc, ht, rfl⟩, rfl⟩ | ⟨⟨c, hc, ht, rfl⟩, rfl⟩)
    · refine ⟨c, hc, ?_⟩
      unfold childSubs
      rw [ht]
      exact List.mem_flatMap.2 ⟨n, List.mem_flatMap.2 ⟨sx, hsx, hs⟩, List.mem_map.2 ⟨g, hg, rfl⟩⟩
    · refine ⟨c, hc, ?_⟩
      unfold childSubs
      rw [ht, hI]
      exact List.mem_singleton.2 rfl
    · refine ⟨c, hc, ?_⟩
      unfold childSubs
      rw [ht, hF]
      exact List.mem_singleton.2 rfl

end Ccpp.PB
