import Verif.Props.SchemeTablesScan
import Verif.Spec.MetadataFile
/-! # C79: the entry points of a Fortran file and their tables -/
namespace Ccpp.ST
open FDecl (Str Blank)
open MF (All2)

variable {V : Type}

/-! ## Metadata -/

/-- The metadata say which uses each variable has. -/
def Rep (md : List (Str × List V)) (vs : List (Str × V)) : Prop :=
  ∀ n, md.lookup n = if usesOf vs n = [] then none else some (usesOf vs n)

theorem lookup_append (md : List (Str × List V)) (k : Str) (v : List V) (n : Str) :
    (md ++ [(k, v)]).lookup n = (md.lookup n).or (if n = k then some v else none) := by
  induction md with
  | nil =>
    by_cases h : n = k
    · subst h; simp
    · simp [List.lookup_cons, beq_false_of_ne h, h]
  | cons e md ih =>
    rw [List.cons_append, List.lookup_cons, List.lookup_cons]
    cases n == e.1 with
    | true => simp
    | false => simpa using ih

theorem lookup_update (md : List (Str × List V)) (k : Str) (w : V) (n : Str) :
    (md.map fun e => if e.1 = k then (e.1, e.2 ++ [w]) else e).lookup n = (md.lookup n).map fun vs => if n = k then vs ++ [w] else vs := by
  induction md with
  | nil => rfl
  | cons e md ih =>
    rw [List.map_cons]
    by_cases h : e.1 = k
    · rw [if_pos h, List.lookup_cons, List.lookup_cons]
      by_cases hn : n = e.1
      · rw [hn, h]; simp
      · rw [beq_false_of_ne hn]; exact ih
    · rw [if_neg h, List.lookup_cons, List.lookup_cons]
      by_cases hn : n = e.1
      · rw [hn]; simp [h]
      · rw [beq_false_of_ne hn]; exact ih

theorem usesOf_append (a b : List (Str × V)) (n : Str) : usesOf (a ++ b) n = usesOf a n ++ usesOf b n := List.filterMap_append

theorem usesOf_single (v : Str × V) (n : Str) : usesOf [v] n = if v.1 = n then [v.2] else [] := by
  unfold usesOf
  by_cases h : v.1 = n
  · simp [h]
  · simp [h]

theorem mem_usesOf {vs : List (Str × V)} {n : Str} {w : V} : w ∈ usesOf vs n ↔ (n, w) ∈ vs := by
  unfold usesOf
  rw [List.mem_filterMap]
  constructor
  · rintro ⟨v, hv, h⟩
    split at h
    · next hn => cases h; rw [← hn]; exact hv
    · cases h
  · intro h; exact ⟨(n, w), h, by simp⟩

theorem addVar_rep {compat : V → V → Bool} {md : List (Str × List V)} {vs : List (Str × V)} (h : Rep md vs) (v : Str × V) :
    ((∀ u ∈ vs, u.1 = v.1 → compat u.2 v.2 = true) → ∃ md', addVar compat md v = some md' ∧ Rep md' (vs ++ [v])) ∧
    ((∃ u ∈ vs, u.1 = v.1 ∧ compat u.2 v.2 ≠ true) → addVar compat md v = none) := by
  have hu : ∀ w, w ∈ usesOf vs v.1 ↔ (v.1, w) ∈ vs := fun w => mem_usesOf
  unfold addVar
  rw [h v.1]
  by_cases he : usesOf vs v.1 = []
  · rw [if_pos he]
    constructor
    · intro _
      refine ⟨_, rfl, fun n => ?_⟩
      rw [lookup_append, h n, usesOf_append, usesOf_single]
      by_cases hn : n = v.1
      · subst hn; simp [he]
      · have hn' : ¬v.1 = n := fun e => hn e.symm
        simp [hn, hn']
    · rintro ⟨u, hm, e, _⟩
      have := (hu u.2).2 (by rw [← e]; exact hm)
      rw [he] at this; cases this
  · rw [if_neg he]
    simp only
    constructor
    · intro hc
      rw [if_pos]
      · refine ⟨_, rfl, fun n => ?_⟩
        rw [lookup_update, h n, usesOf_append, usesOf_single]
        by_cases hn : n = v.1
        · subst hn; simp [he]
        · have hn' : ¬v.1 = n := fun e => hn e.symm
          simp only [hn, hn', if_false, List.append_nil]
          split <;> rfl
      · rw [List.all_eq_true]
        intro w hw
        exact hc (v.1, w) ((hu w).1 hw) rfl
    · rintro ⟨u, hm, e, hc⟩
      rw [if_neg]
      rw [List.all_eq_true]
      intro h
      exact hc (h u.2 ((hu u.2).2 (by rw [← e]; exact hm)))

theorem addVars_rep {compat : V → V → Bool} (new : List (Str × V)) {md : List (Str × List V)} {vs : List (Str × V)} (h : Rep md vs)
    (hc : Compatible compat vs) :
    (Compatible compat (vs ++ new) → ∃ md', new.foldlM (addVar compat) md = some md' ∧ Rep md' (vs ++ new)) ∧
    (∀ md', new.foldlM (addVar compat) md = some md' → Compatible compat (vs ++ new)) := by
  induction new generalizing md vs with
  | nil => exact ⟨fun _ => ⟨md, rfl, by simpa using h⟩, fun _ _ => by simpa using hc⟩
  | cons v new ih =>
    have h1 := addVar_rep (compat := compat) h v
    have hsplit : Compatible compat (vs ++ [v]) ↔ ∀ u ∈ vs, u.1 = v.1 → compat u.2 v.2 = true := by
      unfold Compatible at hc ⊢
      rw [List.pairwise_append]
      constructor
      · intro h u hu; exact h.2.2 u hu v (by simp)
      · intro h; exact ⟨hc, List.pairwise_singleton _ _, by simpa using fun a b hab => h (a, b) hab⟩
    have happ : vs ++ v :: new = (vs ++ [v]) ++ new := by simp
    rw [happ, List.foldlM_cons]
    constructor
    · intro hall
      have hv : Compatible compat (vs ++ [v]) := by
        unfold Compatible at hall ⊢
        exact (List.pairwise_append.1 hall).1
      obtain ⟨md1, e1, r1⟩ := h1.1 (hsplit.1 hv)
      rw [e1]
      exact (ih r1 hv).1 hall
    · intro md' hm
      by_cases hb : ∀ u ∈ vs, u.1 = v.1 → compat u.2 v.2 = true
      · obtain ⟨md1, e1, r1⟩ := h1.1 hb
        rw [e1] at hm
        exact (ih r1 (hsplit.2 hb)).2 md' hm
      · have : addVar compat md v = none := by
          apply h1.2
          refine Classical.byContradiction fun hn => hb fun u hu he => ?_
          exact Classical.byContradiction fun hcc => hn ⟨u, hu, he, hcc⟩
        rw [this] at hm
        cases hm

/-! ## One subroutine -/

theorem doSub_iff {read : Str → Str → Option (List (Str × V))} {compat : V → V → Bool} {mandatory lines : List Str} {m n : Str} {k : Nat} {b : Bool}
    {o : Str} (hl : (lines.take (k + 1)).getLast? = some o) (ho : Opens o n) (md : List (Str × List V))
    (res : List (Str × List V) × Str × List Str) :
    doSub read compat mandatory lines m md (n, k, b) = some res ↔
      ∃ vs, Vars read mandatory ⟨m, n, lines.take (k + 1)⟩ vs ∧ vs.foldlM (addVar compat) md = some res.1 ∧ res.2 = (n, vs.map (·.1)) := by
  unfold doSub
  simp only
  rw [show "arg_table_".toList ++ n = mark n from rfl]
  have table : ∀ (pre post : List Str) (h : Str), lines.take (k + 1) = pre ++ h :: post → (∀ l ∈ post, ¬Mentions n l) → Hook n h →
      ∀ vs, tableAt (read m n) lines pre.length = some vs ↔ (Above n (lines.take (k + 1)) (some false) ∧ vs = [] ∧ ∃ e p, post = e :: p ∧ Words e ["!!".toList]) ∨
        (Above n (lines.take (k + 1)) (some true) ∧ read m n = some vs ∧ ∃ i x e p, post = i :: e :: p ∧
          Words i ["!!".toList, "\\htmlinclude".toList, x] ∧ Words e ["!!".toList]) := by
    intro pre post h he hp hh vs
    rw [tableAt_iff (read m n) he hh (by rw [← he]; exact hl) ho vs]
    constructor
    · rintro (⟨e, p, rfl, hw, rfl⟩ | ⟨i, x, e, p, rfl, hi, hw, hr⟩)
      · exact .inl ⟨by rw [he]; exact .empty hh hw hp, rfl, e, p, rfl, hw⟩
      · exact .inr ⟨by rw [he]; exact .file hh hi hw hp, hr, i, x, e, p, rfl, hi, hw⟩
    · rintro (⟨_, rfl, e, p, rfl, hw⟩ | ⟨_, hr, i, x, e, p, rfl, hi, hw⟩)
      · exact .inl ⟨e, p, rfl, hw, rfl⟩
      · exact .inr ⟨i, x, e, p, rfl, hi, hw, hr⟩
  have guard : ∀ vs : List (Str × V), (vs.isEmpty || mandatory.all fun x => (vs.map (·.1)).contains x) = true ↔
      (vs ≠ [] → ∀ x ∈ mandatory, x ∈ vs.map (·.1)) := by
    intro vs
    rw [Bool.or_eq_true, List.all_eq_true]
    constructor
    · rintro (h | h) hne x hx
      · exact absurd (by simpa using h) hne
      · exact List.contains_iff_mem.1 (h x hx)
    · intro h
      by_cases hne : vs = []
      · left; simp [hne]
      · right; intro x hx; exact List.contains_iff_mem.2 (h hne x hx)
  constructor
  · intro h
    obtain ⟨t, ht, h⟩ := Option.bind_eq_some_iff.1 h
    cases t with
    | none =>
      simp only [Option.some.injEq] at h
      subst h
      refine ⟨[], .inl ⟨none, by simp, .nothing fun l hl' => (findUp_none n _).1 ht l (by simpa using hl'), rfl⟩, rfl, rfl⟩
    | some i =>
      simp only at h
      obtain ⟨a, hk, bb, hr, ha, hh, hi⟩ := (findUp_some n _ i).1 ht
      have he : lines.take (k + 1) = bb.reverse ++ hk :: a.reverse := by
        have := congrArg List.reverse hr
        simpa using this
      have ha' : ∀ l ∈ a.reverse, ¬Mentions n l := fun l hl' => ha l (by simpa using hl')
      obtain ⟨vs, hv, h⟩ := Option.bind_eq_some_iff.1 h
      obtain ⟨md', hm, h⟩ := Option.bind_eq_some_iff.1 h
      split at h
      · next hg =>
        simp only [Option.some.injEq] at h
        subst h
        refine ⟨vs, ?_, hm, rfl⟩
        rw [← hi, ← List.length_reverse] at hv
        rcases (table _ _ _ he ha' hh vs).1 hv with ⟨h1, h2, _⟩ | ⟨h1, h2, _⟩
        · exact .inl ⟨some false, by simp, h1, h2⟩
        · exact .inr ⟨h1, h2, (guard vs).1 hg⟩
      · cases h
  · rintro ⟨vs, hv, hm, hres⟩
    have fin : ∀ (pre post : List Str) (h : Str), lines.take (k + 1) = pre ++ h :: post → (∀ l ∈ post, ¬Mentions n l) → Hook n h →
        tableAt (read m n) lines pre.length = some vs → (vs ≠ [] → ∀ x ∈ mandatory, x ∈ vs.map (·.1)) →
        ((findUp (mark n) (lines.take (k + 1)).reverse).bind fun t => match t with
          | none => some (md, n, [])
          | some i => (tableAt (read m n) lines i).bind fun vs => (vs.foldlM (addVar compat) md).bind fun md' =>
              if (vs.isEmpty || mandatory.all fun n => (vs.map (·.1)).contains n) = true then some (md', n, vs.map (·.1)) else none) = some res := by
      intro pre post h he hp hh ht hg
      have hf : findUp (mark n) (lines.take (k + 1)).reverse = some (some pre.length) :=
        (findUp_some n _ _).2 ⟨post.reverse, h, pre.reverse, by rw [he]; simp, fun l hl' => hp l (by simpa using hl'), hh, by simp⟩
      rw [hf, Option.bind_some]
      simp only
      rw [ht, Option.bind_some, hm, Option.bind_some, if_pos ((guard vs).2 hg), ← hres]
    rcases hv with ⟨b', hb', hab, rfl⟩ | ⟨hab, hr, hg⟩
    · obtain ⟨z, hz⟩ : ∃ z, lines.take (k + 1) = z := ⟨_, rfl⟩
      have hab : Above n (lines.take (k + 1)) b' := hab
      rw [hz] at hab
      cases hab with
      | nothing hno =>
        have hf : findUp (mark n) (lines.take (k + 1)).reverse = some none := (findUp_none n _).2 fun l hl' => hno l (by rw [hz] at hl'; simpa using hl')
        rw [hf, Option.bind_some]
        obtain ⟨r1, r2⟩ := res
        simp only at hres
        subst hres
        have hm : some md = some r1 := hm
        cases hm
        rfl
      | @empty pre h e post hh hw hno =>
        exact fin pre (e :: post) h hz hno hh ((table _ _ _ hz hno hh []).2 (.inl ⟨by rw [hz]; exact .empty hh hw hno, rfl, e, post, rfl, hw⟩)) (by simp)
      | file => exact absurd rfl hb'
    · obtain ⟨z, hz⟩ : ∃ z, lines.take (k + 1) = z := ⟨_, rfl⟩
      have hab : Above n (lines.take (k + 1)) (some true) := hab
      rw [hz] at hab
      generalize hbb : some true = bb at hab
      cases hab with
      | nothing hno => cases hbb
      | empty => cases hbb
      | @file pre h i x e post hh hi hw hno =>
        exact fin pre (i :: e :: post) h hz hno hh
          ((table _ _ _ hz hno hh vs).2 (.inr ⟨by rw [hz]; exact .file hh hi hw hno, hr, i, x, e, post, rfl, hi, hw⟩)) hg

/-! ## The subroutines of a module -/

theorem regs_places {m : Str} {is : List Item} (hok : ∀ i ∈ is, i.Ok m) {lines : List Str} (pre post : List Str)
    (he : lines = pre ++ is.flatMap Item.lines ++ post) :
    ((regsOf pre.length is).map fun r => (⟨m, r.1, lines.take (r.2.1 + 1)⟩ : Place)) = itemPlaces m pre is ∧
    (∀ r ∈ regsOf pre.length is, r.2.2 = true ∧ ∃ o, (lines.take (r.2.1 + 1)).getLast? = some o ∧ Opens o r.1) := by
  induction is generalizing pre with
  | nil => exact ⟨rfl, by simp [regsOf]⟩
  | cons i is ih =>
    have ih := ih (fun x hx => hok x (by simp [hx])) (pre ++ i.lines) (by rw [he]; simp)
    rw [List.length_append] at ih
    cases i with
    | line l => simpa only [regsOf, itemPlaces] using ih
    | other o r => simpa only [regsOf, itemPlaces] using ih
    | entry e =>
      have htake : lines.take (pre.length + 1) = pre ++ [e.opening] := by
        have : lines = (pre ++ [e.opening]) ++ (e.body ++ [e.closing] ++ is.flatMap Item.lines ++ post) := by
          rw [he, List.flatMap_cons, Item.lines]; simp
        rw [this]
        exact List.take_left' (by simp)
      refine ⟨?_, ?_⟩
      · rw [regsOf, itemPlaces, List.map_cons, ih.1]
        simp only [htake]
      · intro r hr
        rw [regsOf] at hr
        rcases List.mem_cons.1 hr with rfl | hr
        · have ho : (Item.entry e).Ok m := hok _ (by simp)
          refine ⟨rfl, e.opening, ?_, ho.1⟩
          simp only [htake]
          simp
        · exact ih.2 r hr

theorem doSubs_iff {read : Str → Str → Option (List (Str × V))} {compat : V → V → Bool} {mandatory lines : List Str} {m : Str}
    (regs : List (Str × Nat × Bool)) (h : ∀ r ∈ regs, ∃ o, (lines.take (r.2.1 + 1)).getLast? = some o ∧ Opens o r.1) (md md' : List (Str × List V))
    (args : List (Str × List Str)) :
    doSubs read compat mandatory lines m md regs = some (md', args) ↔
      ∃ vss, All2 (Vars read mandatory) (regs.map fun r => (⟨m, r.1, lines.take (r.2.1 + 1)⟩ : Place)) vss ∧
        vss.flatten.foldlM (addVar compat) md = some md' ∧
        args = List.zipWith (fun (p : Place) vs => (p.name, vs.map (·.1))) (regs.map fun r => (⟨m, r.1, lines.take (r.2.1 + 1)⟩ : Place)) vss := by
  induction regs generalizing md args with
  | nil =>
    rw [doSubs]
    constructor
    · intro h; cases h; exact ⟨[], .nil, rfl, rfl⟩
    · rintro ⟨vss, h1, h2, rfl⟩
      cases h1
      cases h2
      rfl
  | cons r regs ih =>
    obtain ⟨n, k, b⟩ := r
    obtain ⟨o, hl, ho⟩ := h (n, k, b) (by simp)
    have ih := ih fun x hx => h x (by simp [hx])
    rw [doSubs]
    constructor
    · intro hs
      obtain ⟨a, ha, hs⟩ := Option.bind_eq_some_iff.1 hs
      obtain ⟨c, hc, hs⟩ := Option.map_eq_some_iff.1 hs
      cases hs
      obtain ⟨vs, h1, h2, h3⟩ := (doSub_iff hl ho md a).1 ha
      obtain ⟨vss, h4, h5, h6⟩ := (ih a.1 c.2).1 hc
      refine ⟨vs :: vss, .cons h1 h4, ?_, ?_⟩
      · rw [List.flatten_cons, List.foldlM_append, h2]; exact h5
      · rw [List.map_cons, List.zipWith_cons_cons, ← h6, h3]
    · rintro ⟨vss, h1, h2, rfl⟩
      cases h1 with
      | @cons _ vs _ vss h1 h4 =>
        rw [List.flatten_cons, List.foldlM_append] at h2
        obtain ⟨md1, h2, h5⟩ := Option.bind_eq_some_iff.1 h2
        rw [(doSub_iff hl ho md (md1, n, vs.map (·.1))).2 ⟨vs, h1, h2, rfl⟩, Option.bind_some, (ih md1 _).2 ⟨vss, h4, h5, rfl⟩]
        rfl

/-! ## The modules of a file -/

/-- The argument lists of a file, entry point by entry point -/
def flat (args : List (Str × List (Str × List Str))) : List (Str × Str × List Str) := args.flatMap fun a => a.2.map fun b => (a.1, b.1, b.2)

theorem All2.append {α β : Type} {R : α → β → Prop} {a a' : List α} {b b' : List β} (h : All2 R a b) (h' : All2 R a' b') :
    All2 R (a ++ a') (b ++ b') := by
  induction h with
  | nil => exact h'
  | cons h1 _ ih => exact .cons h1 ih

theorem All2.split {α β : Type} {R : α → β → Prop} {a a' : List α} {c : List β} (h : All2 R (a ++ a') c) :
    ∃ b b', c = b ++ b' ∧ All2 R a b ∧ All2 R a' b' := by
  induction a generalizing c with
  | nil => exact ⟨[], c, rfl, .nil, h⟩
  | cons x a ih =>
    cases h with
    | cons h1 h2 =>
      obtain ⟨b, b', rfl, h3, h4⟩ := ih h2
      exact ⟨_ :: b, b', rfl, .cons h1 h3, h4⟩

theorem All2.len {α β : Type} {R : α → β → Prop} {a : List α} {b : List β} (h : All2 R a b) : a.length = b.length := by
  induction h with
  | nil => rfl
  | cons _ _ ih => simp [ih]

theorem itemPlaces_module (m : Str) (is : List Item) (pre : List Str) : ∀ p ∈ itemPlaces m pre is, p.module = m := by
  induction is generalizing pre with
  | nil => simp [itemPlaces]
  | cons i is ih =>
    cases i with
    | line l => simpa only [itemPlaces] using ih _
    | other o r => simpa only [itemPlaces] using ih _
    | entry e =>
      intro p hp
      rw [itemPlaces] at hp
      rcases List.mem_cons.1 hp with rfl | hp
      · rfl
      · exact ih _ p hp

theorem zip_module {m : Str} {ps : List Place} (h : ∀ p ∈ ps, p.module = m) (vss : List (List (Str × V))) :
    ((List.zipWith (fun (p : Place) (vs : List (Str × V)) => (p.name, vs.map (·.1))) ps vss).map fun b => (m, b.1, b.2)) =
      List.zipWith (fun (p : Place) (vs : List (Str × V)) => (p.module, p.name, vs.map (·.1))) ps vss := by
  induction ps generalizing vss with
  | nil => rfl
  | cons p ps ih =>
    cases vss with
    | nil => rfl
    | cons vs vss =>
      rw [List.zipWith_cons_cons, List.zipWith_cons_cons, List.map_cons, ih fun x hx => h x (by simp [hx]), h p (by simp)]

/-- What is known of a module when it is looked at -/
theorem module_scan {m : SMod} (hm : m.Ok) {lines : List Str} (pre post : List Str) (he : lines = pre ++ m.lines ++ post) (nm : Option Str) :
    ∃ nm', subScan m.name pre.length ⟨false, nm, []⟩ ((lines.take (pre.length + m.lines.length - 1)).drop pre.length) =
      some ⟨false, nm', regsOf (pre.length + 1) m.items⟩ := by
  have hslice : (lines.take (pre.length + m.lines.length - 1)).drop pre.length = m.opening :: m.items.flatMap Item.lines := by
    have h1 : lines = (pre ++ m.opening :: m.items.flatMap Item.lines) ++ (m.closing :: post) := by rw [he, SMod.lines]; simp
    rw [h1, List.take_left' (by simp [SMod.lines]), List.drop_left' rfl]
  obtain ⟨h1, h2, h3, _⟩ := hm
  rw [hslice, subScan, subStep, module_noSub h1]
  simp only [Option.bind_some]
  obtain ⟨nm', h⟩ := items_scan h2 (pre.length + 1) nm [] h3 (by simp)
  exact ⟨nm', by rw [h]; simp⟩

theorem doMods_iff {read : Str → Str → Option (List (Str × V))} {compat : V → V → Bool} {mandatory lines : List Str}
    (ps : List (List Line × SMod)) (hok : ∀ p ∈ ps, p.2.Ok) (pre tail : List Str) (he : lines = pre ++ ps.flatMap (fun p => p.1 ++ p.2.lines) ++ tail)
    (nm : Option Str) (md md' : List (Str × List V)) :
    (∀ args, doMods read compat mandatory lines md nm (modsOf pre.length ps) = some (md', args) →
      ∃ vss, All2 (Vars read mandatory) (places pre ps) vss ∧ vss.flatten.foldlM (addVar compat) md = some md' ∧
        flat args = List.zipWith (fun (p : Place) vs => (p.module, p.name, vs.map (·.1))) (places pre ps) vss ∧
        (∀ a ∈ args, a.2 ≠ []) ∧ (args.map (·.1)).Sublist (ps.map fun p => p.2.name)) ∧
    (∀ vss, All2 (Vars read mandatory) (places pre ps) vss → vss.flatten.foldlM (addVar compat) md = some md' →
      ∃ args, doMods read compat mandatory lines md nm (modsOf pre.length ps) = some (md', args)) := by
  induction ps generalizing pre nm md with
  | nil =>
    constructor
    · intro args h
      rw [modsOf, doMods] at h
      cases h
      exact ⟨[], .nil, rfl, rfl, by simp, .slnil⟩
    · intro vss h1 h2
      rw [places] at h1
      cases h1
      cases h2
      exact ⟨[], rfl⟩
  | cons p ps ih =>
    obtain ⟨q, m⟩ := p
    have hm : m.Ok := hok (q, m) (by simp)
    have hlen : 1 ≤ m.lines.length := by simp [SMod.lines]
    have he1 : lines = (pre ++ q) ++ m.lines ++ (ps.flatMap (fun p => p.1 ++ p.2.lines) ++ tail) := by rw [he]; simp
    have he2 : lines = (pre ++ q ++ m.lines) ++ ps.flatMap (fun p => p.1 ++ p.2.lines) ++ tail := by rw [he]; simp
    have he3 : lines = (pre ++ q ++ [m.opening]) ++ m.items.flatMap Item.lines ++ (m.closing :: (ps.flatMap (fun p => p.1 ++ p.2.lines) ++ tail)) := by
      rw [he, List.flatMap_cons]; simp [SMod.lines]
    obtain ⟨nm', hs⟩ := module_scan hm (pre ++ q) _ he1 nm
    obtain ⟨hp1, hp2⟩ := regs_places hm.2.1 (pre ++ q ++ [m.opening]) _ he3
    have hk : (pre ++ q ++ [m.opening]).length = (pre ++ q).length + 1 := by simp; omega
    rw [hk] at hp1 hp2
    have ih := fun md => ih (fun x hx => hok x (by simp [hx])) (pre ++ q ++ m.lines) he2 nm' md
    have hk2 : (pre ++ q ++ m.lines).length = pre.length + q.length + m.lines.length := by simp; omega
    rw [hk2] at ih
    have hall : ((regsOf ((pre ++ q).length + 1) m.items).all fun r => r.2.2) = true := List.all_eq_true.2 fun r hr => (hp2 r hr).1
    have hsub := fun md md1 args => doSubs_iff (read := read) (compat := compat) (mandatory := mandatory) (m := m.name) (regsOf ((pre ++ q).length + 1) m.items)
      (fun r hr => (hp2 r hr).2) md md1 args
    rw [hp1] at hsub
    have unf : doMods read compat mandatory lines md nm (modsOf pre.length ((q, m) :: ps)) =
        (doSubs read compat mandatory lines m.name md (regsOf ((pre ++ q).length + 1) m.items)).bind fun a =>
          (doMods read compat mandatory lines a.1 nm' (modsOf (pre.length + q.length + m.lines.length) ps)).map fun b =>
            (b.1, if a.2.isEmpty then b.2 else (m.name, a.2) :: b.2) := by
      rw [modsOf, doMods]
      simp only [Option.bind_some]
      rw [← List.length_append, hs, Option.bind_some]
      simp only
      rw [if_pos hall]
    rw [unf]
    constructor
    · intro args h
      obtain ⟨a, ha, h⟩ := Option.bind_eq_some_iff.1 h
      obtain ⟨c, hc, h⟩ := Option.map_eq_some_iff.1 h
      obtain ⟨vs1, v1, v2, v3⟩ := (hsub md a.1 a.2).1 ha
      cases h
      obtain ⟨vs2, w1, w2, w3, w4, w5⟩ := (ih a.1).1 c.2 hc
      refine ⟨vs1 ++ vs2, All2.append v1 w1, ?_, ?_, ?_, ?_⟩
      · rw [List.flatten_append, List.foldlM_append, v2]; exact w2
      · rw [places, List.zipWith_append (All2.len v1), ← w3, ← zip_module (itemPlaces_module _ _ _), ← v3]
        by_cases hem : a.2 = []
        · simp [hem]
        · rw [if_neg (by simpa using hem)]
          rfl
      · by_cases hem : a.2 = []
        · simpa [hem] using w4
        · rw [if_neg (by simpa using hem)]
          intro x hx
          rcases List.mem_cons.1 hx with rfl | hx
          · exact hem
          · exact w4 x hx
      · by_cases hem : a.2 = []
        · simp only [hem, List.isEmpty_nil, if_true, List.map_cons]
          exact w5.cons _
        · rw [if_neg (by simpa using hem)]
          exact w5.cons_cons _
    · intro vss h1 h2
      rw [places] at h1
      obtain ⟨vs1, vs2, rfl, v1, w1⟩ := All2.split h1
      rw [List.flatten_append, List.foldlM_append] at h2
      obtain ⟨md1, h2, h3⟩ := Option.bind_eq_some_iff.1 h2
      rw [(hsub md md1 _).2 ⟨vs1, v1, h2, rfl⟩, Option.bind_some]
      obtain ⟨args, ha⟩ := (ih md1).2 vs2 w1 h3
      rw [ha]
      exact ⟨_, rfl⟩

theorem parse_file {read : Str → Str → Option (List (Str × V))} {compat : V → V → Bool} {mandatory file : List Str} {f : SFile} (hf : f.Ok)
    (hl : Logical file f.lines) : parse read compat mandatory file = doMods read compat mandatory f.lines [] none (modsOf 0 f.mods) := by
  unfold parse
  simp only
  rw [joinLines_logical hl]
  have : modScan 0 none [] f.lines = some (modsOf 0 f.mods) := by
    unfold SFile.lines
    rw [modScan_mods (fun p hp => ⟨(hf.1 p hp).1, (hf.1 p hp).2.shape⟩) hf.2.2 hf.2.1 0 none [] (by simp)]
    simp
  rw [this, Option.bind_some]

/-- **C79, which files are accepted**: a well-formed file is accepted exactly if above each of its entry points there is no table, an empty table,
or a table whose metadata can be read and has all mandatory variables; and if all uses of a variable are compatible. -/
theorem C79_accept_partial {read : Str → Str → Option (List (Str × V))} {compat : V → V → Bool} {mandatory file : List Str} {f : SFile} (hf : f.Ok)
    (hl : Logical file f.lines) : (parse read compat mandatory file).isSome = true ↔
      ∃ vss, All2 (Vars read mandatory) f.places vss ∧ Compatible compat vss.flatten := by
  rw [parse_file hf hl]
  have key := fun md' => doMods_iff (read := read) (compat := compat) (mandatory := mandatory) f.mods (fun p hp => (hf.1 p hp).2) [] f.tail
    (lines := f.lines) (by simp [SFile.lines]) none [] md'
  have hrep : Rep ([] : List (Str × List V)) [] := fun n => by simp [usesOf]
  constructor
  · intro h
    obtain ⟨⟨md', args⟩, h⟩ := Option.isSome_iff_exists.1 h
    obtain ⟨vss, h1, h2, _⟩ := (key md').1 args h
    refine ⟨vss, h1, ?_⟩
    have := (addVars_rep (compat := compat) vss.flatten hrep List.Pairwise.nil).2 md' h2
    simpa using this
  · rintro ⟨vss, h1, h2⟩
    obtain ⟨md', h3, _⟩ := (addVars_rep (compat := compat) vss.flatten hrep List.Pairwise.nil).1 (by simpa using h2)
    obtain ⟨args, ha⟩ := (key md').2 vss h1 h3
    rw [show (0 : Nat) = ([] : List Str).length from rfl, ha]
    rfl

/-- **C79, the result**: the argument lists are, entry point by entry point in the order of the file, the names of the variables of its table, and
no other subroutine has one; the metadata of a variable are its uses in this order. -/
theorem C79_result_partial {read : Str → Str → Option (List (Str × V))} {compat : V → V → Bool} {mandatory file : List Str} {f : SFile} (hf : f.Ok)
    (hl : Logical file f.lines) {md : List (Str × List V)} {args : List (Str × List (Str × List Str))}
    (h : parse read compat mandatory file = some (md, args)) :
    ∃ vss, All2 (Vars read mandatory) f.places vss ∧
      (args.flatMap fun a => a.2.map fun b => (a.1, b.1, b.2)) = List.zipWith (fun (p : Place) vs => (p.module, p.name, vs.map (·.1))) f.places vss ∧
      (∀ a ∈ args, a.2 ≠ []) ∧ (args.map (·.1)).Nodup ∧
      ∀ n, md.lookup n = if usesOf vss.flatten n = [] then none else some (usesOf vss.flatten n) := by
  rw [parse_file hf hl] at h
  obtain ⟨vss, h1, h2, h3, h4, h5⟩ := (doMods_iff (read := read) (compat := compat) (mandatory := mandatory) f.mods (fun p hp => (hf.1 p hp).2) [] f.tail
    (lines := f.lines) (by simp [SFile.lines]) none [] md).1 args h
  have hrep : Rep ([] : List (Str × List V)) [] := fun n => by simp [usesOf]
  refine ⟨vss, h1, h3, h4, h5.nodup hf.2.2, ?_⟩
  have hc := (addVars_rep (compat := compat) vss.flatten hrep List.Pairwise.nil).2 md h2
  obtain ⟨md', e1, e2⟩ := (addVars_rep (compat := compat) vss.flatten hrep List.Pairwise.nil).1 hc
  rw [h2] at e1
  cases e1
  simpa [Rep] using e2

/-- What is above an entry point determines the result: a line with the mark of its table that is not the first line of a table, below all
such first lines, is an error. -/
theorem C79_malformed {read : Str → Str → Option (List (Str × V))} {compat : V → V → Bool} {mandatory file : List Str} {f : SFile} (hf : f.Ok)
    (hl : Logical file f.lines) {p : Place} (hp : p ∈ f.places) {a b : List Line} {l : Line} (he : p.above = a ++ l :: b)
    (h1 : Mentions p.name l) (h2 : ¬Hook p.name l) (h3 : ∀ x ∈ b, ¬Mentions p.name x) : parse read compat mandatory file = none := by
  cases e : parse read compat mandatory file with
  | none => rfl
  | some r =>
    exfalso
    obtain ⟨vss, hv, _⟩ := (C79_accept_partial (read := read) (compat := compat) (mandatory := mandatory) hf hl).1 (by rw [e]; rfl)
    have : ∃ vs, Vars read mandatory p vs := by
      obtain ⟨i, hi⟩ := List.mem_iff_getElem?.1 hp
      have get : ∀ {α β : Type} {R : α → β → Prop} {as : List α} {bs : List β}, All2 R as bs → ∀ a ∈ as, ∃ b, R a b := by
        intro α β R as bs h
        induction h with
        | nil => intro a h; cases h
        | cons h1 _ ih =>
          intro a ha
          rcases List.mem_cons.1 ha with rfl | ha
          · exact ⟨_, h1⟩
          · exact ih a ha
      exact get hv p hp
    obtain ⟨vs, hv⟩ := this
    have uniq : ∀ (pre post : List Line) (h : Line), a ++ l :: b = pre ++ h :: post → Hook p.name h → (∀ x ∈ post, ¬Mentions p.name x) → False := by
      intro pre post h hh hk hn
      rcases List.append_eq_append_iff.1 hh with ⟨c, hc1, hc2⟩ | ⟨c, hc1, hc2⟩
      · cases c with
        | nil => cases hc2; exact h2 hk
        | cons x c => cases hc2; exact h3 h (by simp) (hook_mentions hk)
      · cases c with
        | nil => cases hc2; exact h2 hk
        | cons x c => cases hc2; exact hn l (by simp) h1
    rcases hv with ⟨bb, _, hab, _⟩ | ⟨hab, _⟩
    · rw [he] at hab
      generalize hz : a ++ l :: b = z at hab
      cases hab with
      | nothing h => exact h l (by rw [← hz]; simp) h1
      | empty hk _ hn => exact uniq _ _ _ hz hk hn
      | file hk _ _ hn => exact uniq _ _ _ hz hk hn
    · rw [he] at hab
      generalize hz : a ++ l :: b = z at hab
      generalize hbb : some true = bb at hab
      cases hab with
      | nothing h => cases hbb
      | empty hk _ hn => exact uniq _ _ _ hz hk hn
      | file hk _ _ hn => exact uniq _ _ _ hz hk hn

end Ccpp.ST
