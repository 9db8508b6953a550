import Verif.Props.HostModelPaths
/-!
# C67: the hosts that are accepted and what is found in them
-/
namespace Ccpp.HM

def Header.isHost (x : Header) : Prop := match x.kind with | .host => True | _ => False

def Header.ok (x : Header) : Prop := match x.kind with | .other => False | _ => True

/-- The modules after a header. -/
def Header.mods (x : Header) (l : List (Str × Str)) : List (Str × Str) :=
  match x.kind with
  | .module_ m => modulesOf (some m) l x.vars
  | _ => l

def LoopOk (x : Header) (d : Core) : Prop :=
  x.isHost → ∀ v ∈ x.vars, v.std ∈ loopNames → ∀ r ∈ d.2.entries, r.leaf.std ∈ loopNames → lower v.loc ≠ r.lloc

def loopRefs (x : Header) (d : Core) : List Ref :=
  (x.vars.filter fun v => v.std ∈ loopNames).map Ref.var ++ d.2.entries.filter fun r => r.leaf.std ∈ loopNames

theorem modulesOf_none (l : List (Str × Str)) (vs : List V) : modulesOf none l vs = l := by
  induction vs generalizing l with
  | nil => rfl
  | cons v vs ih => exact ih l

theorem loops_iff {x : Header} (hx : x.isHost) {d : Core} (hg : Good d.1.entries d.2.entries)
    (hs : (x.vars.map Ref.var).Sublist d.1.entries) :
    (addLoops ⟨[], []⟩ (loopRefs x d)).isSome = true ↔ LoopOk x d := by
  rw [addLoops_iff ⟨[], []⟩ (by simp) (by simp) (by simp)]
  show ((loopRefs x d).map _).Nodup ∧ ((loopRefs x d).map _).Nodup ↔ _
  have hs1 : ((x.vars.filter fun v => v.std ∈ loopNames).map Ref.var).Sublist d.1.entries :=
    (List.Sublist.map _ List.filter_sublist).trans hs
  have hs2 : (d.2.entries.filter fun r => r.leaf.std ∈ loopNames).Sublist d.2.entries := List.filter_sublist
  unfold loopRefs
  rw [and_iff_right (List.Nodup.sublist (List.Sublist.map _ (hs1.append hs2)) hg.stds)]
  rw [List.map_append, List.nodup_append]
  rw [and_iff_right (List.Nodup.sublist (List.Sublist.map _ hs1) hg.vars),
    and_iff_right (List.Nodup.sublist (List.Sublist.map _ hs2) hg.comps)]
  unfold LoopOk
  rw [imp_iff_right hx]
  constructor
  · intro h v hv hl r hr hrl
    refine h (lower v.loc) ?_ r.lloc ?_
    · exact List.mem_map.2 ⟨.var v, List.mem_map.2 ⟨v, List.mem_filter.2 ⟨hv, by simp [hl]⟩, rfl⟩, rfl⟩
    · exact List.mem_map.2 ⟨r, List.mem_filter.2 ⟨hr, by simp [hrl]⟩, rfl⟩
  · intro h a ha b hb
    obtain ⟨q, hq, rfl⟩ := List.mem_map.1 ha
    obtain ⟨v, hv, rfl⟩ := List.mem_map.1 hq
    obtain ⟨r, hr, rfl⟩ := List.mem_map.1 hb
    have hv := List.mem_filter.1 hv
    have hr := List.mem_filter.1 hr
    exact h v hv.1 (of_decide_eq_true hv.2) r hr.1 (of_decide_eq_true hr.2)

theorem addVars_iff {lib : Lib} {n : Nat} {m : Option Str} {h : Host} {vs : List V} (hi : Inv (core h))
    (hg : Good (core h).1.entries (core h).2.entries) (h' : Host) : Host.addVars lib n m h vs = some h' ↔
      ∃ rs, refsAll lib n vs = some rs ∧ Good (growAll (core h) rs).1.entries (growAll (core h) rs).2.entries ∧
        h' = { setCore h (growAll (core h) rs) with modules := modulesOf m h.modules vs } := by
  rw [addVars_eq, Option.bind_eq_some_iff]
  apply exists_congr
  intro rs
  apply and_congr_right'
  rw [Option.map_eq_some_iff]
  constructor
  · rintro ⟨d, hd, rfl⟩
    obtain ⟨rfl, hd2⟩ := (addRefs_iff hi hg rs d).1 hd
    exact ⟨hd2, rfl⟩
  · rintro ⟨hd, rfl⟩
    exact ⟨_, (addRefs_iff hi hg rs _).2 ⟨rfl, hd⟩, rfl⟩

theorem vars_sublist {lib : Lib} {n : Nat} {vs : List V} {rs : List Ref} (h : refsAll lib n vs = some rs) (d : Core) :
    (vs.map Ref.var).Sublist (growAll d rs).1.entries := by
  obtain ⟨_, _, h2, _⟩ := refsAll_paths (refsAll_known h) rs h
  rw [(growAll_entries d rs).1, h2]
  exact List.sublist_append_right ..

theorem addHeader_host {lib : Lib} {n : Nat} {h : Host} {x : Header} (hk : x.isHost) : h.addHeader lib n x =
    (Host.addVars lib n none h x.vars).bind fun h1 =>
      match loopRefs x (core h1) with
      | [] => some h1
      | r :: rs => (addLoops ⟨[], []⟩ (r :: rs)).map fun d => { h1 with loops := some d } := by
  obtain ⟨k, vs⟩ := x
  cases k with
  | module_ m => exact absurd hk id
  | host => rfl
  | other => exact absurd hk id

/-- One header. -/
theorem addHeader_iff {lib : Lib} {n : Nat} {h : Host} {x : Header} (hi : Inv (core h))
    (hg : Good (core h).1.entries (core h).2.entries) :
    (∃ h', h.addHeader lib n x = some h') ↔ x.ok ∧ ∃ rs, refsAll lib n x.vars = some rs ∧
      Good (growAll (core h) rs).1.entries (growAll (core h) rs).2.entries ∧ LoopOk x (growAll (core h) rs) := by
  obtain ⟨k, vs⟩ := x
  cases k with
  | other =>
    constructor
    · rintro ⟨_, h⟩; cases h
    · rintro ⟨h, _⟩; exact absurd h id
  | module_ m =>
    show (∃ h', Host.addVars lib n (some m) h vs = some h') ↔ _
    constructor
    · rintro ⟨h', hh⟩
      obtain ⟨rs, h1, h2, _⟩ := (addVars_iff hi hg h').1 hh
      exact ⟨trivial, rs, h1, h2, fun hx => absurd hx id⟩
    · rintro ⟨_, rs, h1, h2, _⟩
      exact ⟨_, (addVars_iff hi hg _).2 ⟨rs, h1, h2, rfl⟩⟩
  | host =>
    rw [addHeader_host (x := ⟨.host, vs⟩) trivial]
    show _ ↔ True ∧ ∃ rs, refsAll lib n vs = some rs ∧ _
    rw [true_and]
    constructor
    · rintro ⟨h', hh⟩
      rw [Option.bind_eq_some_iff] at hh
      obtain ⟨h1, e1, e2⟩ := hh
      obtain ⟨rs, r1, r2, r3⟩ := (addVars_iff hi hg h1).1 e1
      have hc : core h1 = growAll (core h) rs := by rw [r3]; rfl
      refine ⟨rs, r1, r2, ?_⟩
      rw [← hc] at r2 ⊢
      refine (loops_iff (x := ⟨.host, vs⟩) trivial r2 ?_).1 ?_
      · rw [hc]; exact vars_sublist r1 _
      · cases hl : loopRefs ⟨.host, vs⟩ (core h1) with
        | nil => rfl
        | cons r l =>
          rw [hl] at e2
          simp only [Option.map_eq_some_iff] at e2
          obtain ⟨d, e2, _⟩ := e2
          rw [e2]
          rfl
    · rintro ⟨rs, r1, r2, r3⟩
      rw [(addVars_iff hi hg _).2 ⟨rs, r1, r2, rfl⟩, Option.bind_some]
      have hl := (loops_iff (x := ⟨.host, vs⟩) trivial r2 (vars_sublist r1 _)).2 r3
      show ∃ h', (match loopRefs ⟨.host, vs⟩ (growAll (core h) rs) with
        | [] => _
        | r :: rs => _) = some h'
      cases he : loopRefs ⟨.host, vs⟩ (growAll (core h) rs) with
      | nil => exact ⟨_, rfl⟩
      | cons r l =>
        rw [he] at hl
        obtain ⟨d, hd⟩ := Option.isSome_iff_exists.1 hl
        simp only [hd]
        exact ⟨_, rfl⟩

theorem addHeader_core {lib : Lib} {n : Nat} {h h' : Host} {x : Header} (hi : Inv (core h))
    (hg : Good (core h).1.entries (core h).2.entries) (hh : h.addHeader lib n x = some h') :
    ∃ rs, refsAll lib n x.vars = some rs ∧ core h' = growAll (core h) rs ∧ h'.modules = x.mods h.modules := by
  obtain ⟨k, vs⟩ := x
  cases k with
  | other => cases hh
  | module_ m =>
    obtain ⟨rs, h1, h2, rfl⟩ := (addVars_iff hi hg h').1 hh
    exact ⟨rs, h1, rfl, rfl⟩
  | host =>
    rw [addHeader_host (x := ⟨.host, vs⟩) trivial, Option.bind_eq_some_iff] at hh
    obtain ⟨h1, e1, e2⟩ := hh
    obtain ⟨rs, r1, r2, r3⟩ := (addVars_iff hi hg h1).1 e1
    refine ⟨rs, r1, ?_⟩
    have key : core h' = core h1 ∧ h'.modules = h1.modules := by
      split at e2
      · injection e2 with e2; subst e2; exact ⟨rfl, rfl⟩
      · rw [Option.map_eq_some_iff] at e2
        obtain ⟨d, _, rfl⟩ := e2
        exact ⟨rfl, rfl⟩
    rw [key.1, key.2, r3]
    exact ⟨rfl, modulesOf_none ..⟩

/-- All headers. -/
def LoopsOk (lib : Lib) (n : Nat) : Core → List Header → Prop
  | _, [] => True
  | d, x :: xs => ∀ rs, refsAll lib n x.vars = some rs → LoopOk x (growAll d rs) ∧ LoopsOk lib n (growAll d rs) xs

def modsAll (l : List (Str × Str)) (xs : List Header) : List (Str × Str) := xs.foldl (fun l x => x.mods l) l

theorem addHeaders_iff {lib : Lib} {n : Nat} {h : Host} {xs : List Header} (hi : Inv (core h))
    (hg : Good (core h).1.entries (core h).2.entries) :
    (∃ h', Host.addHeaders lib n h xs = some h') ↔ (∀ x ∈ xs, x.ok) ∧ ∃ rs, refsAll lib n (xs.flatMap (·.vars)) = some rs ∧
      Good (growAll (core h) rs).1.entries (growAll (core h) rs).2.entries ∧ LoopsOk lib n (core h) xs := by
  induction xs generalizing h with
  | nil =>
    constructor
    · intro _
      exact ⟨by simp, [], rfl, hg, trivial⟩
    · intro _
      exact ⟨_, rfl⟩
  | cons x xs ih =>
    rw [List.flatMap_cons, refsAll_append]
    constructor
    · rintro ⟨h', hh⟩
      rw [Host.addHeaders, Option.bind_eq_some_iff] at hh
      obtain ⟨h1, e1, e2⟩ := hh
      obtain ⟨hok, rs, r1, r2, r3⟩ := (addHeader_iff hi hg).1 ⟨h1, e1⟩
      obtain ⟨rs', r1', hc, _⟩ := addHeader_core hi hg e1
      rw [r1] at r1'
      injection r1' with r1'
      subst r1'
      rw [← hc] at r2
      obtain ⟨ko, rs2, q1, q2, q3⟩ := (ih (hc ▸ growAll_inv hi rs) r2).1 ⟨h', e2⟩
      refine ⟨?_, rs ++ rs2, ?_, ?_, ?_⟩
      · intro y hy
        rcases List.mem_cons.1 hy with rfl | hy
        · exact hok
        · exact ko y hy
      · rw [r1, q1]; rfl
      · rw [growAll_append, ← hc]; exact q2
      · intro rs' hr
        rw [r1] at hr
        injection hr with hr
        subst hr
        exact ⟨r3, hc ▸ q3⟩
    · rintro ⟨hok, rs0, h1, h2, h3⟩
      rw [Option.bind_eq_some_iff] at h1
      obtain ⟨rs, r1, h1⟩ := h1
      rw [Option.map_eq_some_iff] at h1
      obtain ⟨rs2, q1, rfl⟩ := h1
      rw [growAll_append] at h2
      obtain ⟨l1, l2⟩ := h3 rs r1
      obtain ⟨h', e1⟩ := (addHeader_iff hi hg).2 ⟨hok x (List.mem_cons_self ..), rs, r1, h2.of_growAll, l1⟩
      obtain ⟨rs', r1', hc, _⟩ := addHeader_core hi hg e1
      rw [r1] at r1'
      injection r1' with r1'
      subst r1'
      rw [Host.addHeaders, e1, Option.bind_some]
      refine (ih (hc ▸ growAll_inv hi rs) ?_).2 ⟨fun y hy => hok y (List.mem_cons_of_mem _ hy), rs2, q1, ?_, ?_⟩
      · rw [hc]; exact h2.of_growAll
      · rw [hc]; exact h2
      · rw [hc]; exact l2

theorem addHeaders_core {lib : Lib} {n : Nat} {h h' : Host} {xs : List Header} (hi : Inv (core h))
    (hg : Good (core h).1.entries (core h).2.entries) (hh : Host.addHeaders lib n h xs = some h') :
    ∃ rs, refsAll lib n (xs.flatMap (·.vars)) = some rs ∧ core h' = growAll (core h) rs ∧ h'.modules = modsAll h.modules xs := by
  induction xs generalizing h with
  | nil =>
    injection hh with hh
    subst hh
    exact ⟨[], rfl, rfl, rfl⟩
  | cons x xs ih =>
    rw [Host.addHeaders, Option.bind_eq_some_iff] at hh
    obtain ⟨h1, e1, e2⟩ := hh
    obtain ⟨_, rs, r1, r2, _⟩ := (addHeader_iff hi hg).1 ⟨h1, e1⟩
    obtain ⟨rs', r1', hc, hm⟩ := addHeader_core hi hg e1
    rw [r1] at r1'
    injection r1' with r1'
    subst r1'
    obtain ⟨rs2, q1, q2, q3⟩ := ih (hc ▸ growAll_inv hi rs) (by rw [hc]; exact r2) e2
    refine ⟨rs ++ rs2, ?_, ?_, ?_⟩
    · rw [List.flatMap_cons, refsAll_append, r1, q1]; rfl
    · rw [q2, hc, growAll_append]
    · rw [q3, hm]; rfl

def empty : Host := ⟨⟨[], []⟩, ⟨[], []⟩, [], none⟩

theorem empty_inv : Inv (core empty) := ⟨by simp [core, empty], by simp [core, empty]⟩

theorem empty_good : Good (core empty).1.entries (core empty).2.entries :=
  ⟨by simp [core, empty], by simp [core, empty], by simp [core, empty], by simp [core, empty]⟩

/-- The references of all variables. -/
theorem build_iff (lib : Lib) (n : Nat) (headers : List Header) (const : Option (Str × V)) :
    (∃ h, build n lib headers const = some h) ↔ (lib.map (·.1)).Nodup ∧ (∀ x ∈ headers, x.ok) ∧
      ∃ rs, refsAll lib n (variablesOf headers const) = some rs ∧
        Good (growAll (core empty) rs).1.entries (growAll (core empty) rs).2.entries ∧ LoopsOk lib n (core empty) headers := by
  unfold build
  by_cases hl : libOk lib = true
  · rw [if_pos hl, and_iff_right ((libOk_iff lib).1 hl)]
    show (∃ h, (Host.addHeaders lib n empty headers).bind _ = some h) ↔ _
    unfold variablesOf
    cases const with
    | none =>
      rw [show (Option.map Prod.snd (none : Option (Str × V))).toList = [] from rfl, List.append_nil, ← addHeaders_iff empty_inv empty_good]
      cases Host.addHeaders lib n empty headers with
      | none => simp
      | some h => simp
    | some cv =>
      obtain ⟨cap, v⟩ := cv
      rw [show (Option.map Prod.snd (some (cap, v))).toList = [v] from rfl, refsAll_append]
      constructor
      · rintro ⟨h, hh⟩
        rw [Option.bind_eq_some_iff] at hh
        obtain ⟨h1, e1, e2⟩ := hh
        obtain ⟨ko, rs, q1, q2, q3⟩ := (addHeaders_iff empty_inv empty_good).1 ⟨h1, e1⟩
        obtain ⟨rs', q1', hc, _⟩ := addHeaders_core empty_inv empty_good e1
        rw [q1] at q1'
        injection q1' with q1'
        subst q1'
        rw [← hc] at q2
        obtain ⟨rs2, p1, p2, _⟩ := (addVars_iff (hc ▸ growAll_inv empty_inv rs) q2 h).1 e2
        refine ⟨ko, rs ++ rs2, ?_, ?_, q3⟩
        · rw [q1, p1]; rfl
        · rw [growAll_append, ← hc]; exact p2
      · rintro ⟨ko, rs0, h1, h2, h3⟩
        rw [Option.bind_eq_some_iff] at h1
        obtain ⟨rs, r1, h1⟩ := h1
        rw [Option.map_eq_some_iff] at h1
        obtain ⟨rs2, q1, rfl⟩ := h1
        rw [growAll_append] at h2
        obtain ⟨h', e1⟩ := (addHeaders_iff empty_inv empty_good).2 ⟨ko, rs, r1, h2.of_growAll, h3⟩
        obtain ⟨rs', r1', hc, _⟩ := addHeaders_core empty_inv empty_good e1
        rw [r1] at r1'
        injection r1' with r1'
        subst r1'
        rw [e1, Option.bind_some]
        have hg : Good (core h').1.entries (core h').2.entries := by rw [hc]; exact h2.of_growAll
        exact ⟨_, (addVars_iff (hc ▸ growAll_inv empty_inv rs) hg _).2 ⟨rs2, q1, hc ▸ h2, rfl⟩⟩
  · rw [if_neg hl]
    constructor
    · rintro ⟨_, h⟩; cases h
    · rintro ⟨h, _⟩; exact absurd ((libOk_iff lib).2 h) hl

def modsBuild (headers : List Header) (const : Option (Str × V)) : List (Str × Str) :=
  match const with
  | none => modsAll [] headers
  | some (cap, v) => modulesOf (some cap) (modsAll [] headers) [v]

theorem build_core {lib : Lib} {n : Nat} {headers : List Header} {const : Option (Str × V)} {h : Host}
    (hh : build n lib headers const = some h) : ∃ rs, refsAll lib n (variablesOf headers const) = some rs ∧
      core h = growAll (core empty) rs ∧ h.modules = modsBuild headers const := by
  unfold build at hh
  split at hh
  · have hh : (Host.addHeaders lib n empty headers).bind _ = some h := hh
    unfold variablesOf
    rw [Option.bind_eq_some_iff] at hh
    obtain ⟨h1, e1, e2⟩ := hh
    obtain ⟨ko, rs, q1, q2, q3⟩ := (addHeaders_iff empty_inv empty_good).1 ⟨h1, e1⟩
    obtain ⟨rs', q1', hc, hm⟩ := addHeaders_core empty_inv empty_good e1
    rw [q1] at q1'
    injection q1' with q1'
    subst q1'
    cases const with
    | none =>
      rw [show (Option.map Prod.snd (none : Option (Str × V))).toList = [] from rfl, List.append_nil]
      injection e2 with e2
      subst e2
      exact ⟨rs, q1, hc, hm⟩
    | some cv =>
      obtain ⟨cap, v⟩ := cv
      rw [show (Option.map Prod.snd (some (cap, v))).toList = [v] from rfl, refsAll_append]
      obtain ⟨rs2, p1, p2, rfl⟩ := (addVars_iff (hc ▸ growAll_inv empty_inv rs) (by rw [hc]; exact q2) h).1 e2
      refine ⟨rs ++ rs2, ?_, ?_, ?_⟩
      · rw [q1, p1]; rfl
      · rw [growAll_append, ← hc]; rfl
      · show modulesOf (some cap) h1.modules [v] = _
        rw [hm]
        rfl
  · cases hh

/-! ## Prefixes -/

theorem loopsOk_iff {lib : Lib} {n : Nat} {d : Core} {xs : List Header} {all : List Ref}
    (hr : refsAll lib n (xs.flatMap (·.vars)) = some all) : LoopsOk lib n d xs ↔
      ∀ a x b, xs = a ++ x :: b → ∀ rs, refsAll lib n ((a ++ [x]).flatMap (·.vars)) = some rs → LoopOk x (growAll d rs) := by
  induction xs generalizing d all with
  | nil =>
    constructor
    · intro _ a x b h
      cases a <;> cases h
    · intro _; trivial
  | cons y ys ih =>
    rw [List.flatMap_cons, refsAll_append, Option.bind_eq_some_iff] at hr
    obtain ⟨r1, e1, hr⟩ := hr
    rw [Option.map_eq_some_iff] at hr
    obtain ⟨r2, e2, rfl⟩ := hr
    constructor
    · intro h a x b he rs hrs
      obtain ⟨h1, h2⟩ := h r1 e1
      cases a with
      | nil =>
        injection he with he1 he2
        subst he1
        have : (([] : List Header) ++ [y]).flatMap (·.vars) = y.vars := by simp
        rw [this, e1] at hrs
        injection hrs with hrs
        subst hrs
        exact h1
      | cons z a =>
        injection he with he1 he2
        subst he1
        rw [List.cons_append, List.flatMap_cons, refsAll_append, e1, Option.bind_some, Option.map_eq_some_iff] at hrs
        obtain ⟨rs', hrs, rfl⟩ := hrs
        rw [growAll_append]
        exact (ih e2).1 h2 a x b he2 rs' hrs
    · intro h rs hrs
      rw [e1] at hrs
      injection hrs with hrs
      subst hrs
      refine ⟨h [] y ys rfl r1 (by simpa using e1), (ih e2).2 ?_⟩
      intro a x b he rs hrs
      have := h (y :: a) x b (by rw [he]; rfl) (r1 ++ rs) (by
        rw [List.cons_append, List.flatMap_cons, refsAll_append, e1, Option.bind_some, hrs]; rfl)
      rwa [growAll_append] at this

theorem refsAll_prefix {lib : Lib} {n : Nat} {a b : List V} {rs : List Ref} (h : refsAll lib n (a ++ b) = some rs) :
    ∃ r, refsAll lib n a = some r := by
  rw [refsAll_append, Option.bind_eq_some_iff] at h
  obtain ⟨r, h, _⟩ := h
  exact ⟨r, h⟩

theorem comps_mem {lib : Lib} {n : Nat} {vs : List V} {rs : List Ref} {ps : List (List V)} (hr : refsAll lib n vs = some rs)
    (hp : pathsN lib (n + 1) vs = some ps) : (growAll (core empty) rs).1.entries = vs.map .var ∧
      (growAll (core empty) rs).2.entries = (ps.filter fun p => 2 ≤ p.length).map toRef := by
  obtain ⟨ps', h1, h2, h3, h4⟩ := refsAll_paths (refsAll_known hr) rs hr
  rw [hp] at h1
  injection h1 with h1
  subst h1
  obtain ⟨e1, e2⟩ := growAll_entries (core empty) rs
  rw [e1, e2, h2, h3]
  exact ⟨List.nil_append _, List.nil_append _⟩

theorem noLoopClash_iff {lib : Lib} (hl : (lib.map (·.1)).Nodup) {n : Nat} {headers : List Header} {all : List Ref}
    (hr : refsAll lib n (headers.flatMap (·.vars)) = some all) :
    LoopsOk lib n (core empty) headers ↔ NoLoopClash lib headers := by
  rw [loopsOk_iff hr]
  unfold NoLoopClash
  have pre : ∀ a x b, headers = a ++ x :: b → ∃ rs ps, refsAll lib n ((a ++ [x]).flatMap (·.vars)) = some rs ∧
      pathsN lib (n + 1) ((a ++ [x]).flatMap (·.vars)) = some ps ∧
      (growAll (core empty) rs).2.entries = (ps.filter fun p => 2 ≤ p.length).map toRef := by
    intro a x b he
    rw [he, List.append_cons, List.flatMap_append] at hr
    obtain ⟨rs, hrs⟩ := refsAll_prefix hr
    obtain ⟨ps, hps, _⟩ := refsAll_paths (refsAll_known hrs) rs hrs
    exact ⟨rs, ps, hrs, hps, (comps_mem hrs hps).2⟩
  constructor
  · intro h a x b he hx v hv hvl ps hps p hp h2 hpl
    obtain ⟨rs, ps', hrs, hps', hc⟩ := pre a x b he
    have := paths_unique hl hps (paths_of_pathsN hl hps')
    subst this
    have := h a x b he rs hrs hx v hv hvl (toRef p) (by
      rw [hc]; exact List.mem_map.2 ⟨p, List.mem_filter.2 ⟨hp, by simp [h2]⟩, rfl⟩)
    rw [toRef_leaf] at this
    have := this hpl
    unfold Ref.lloc at this
    rwa [toRef_leaf] at this
  · intro h a x b he rs hrs hx v hv hvl r hrm hrl
    obtain ⟨rs', ps', hrs', hps', hc⟩ := pre a x b he
    rw [hrs] at hrs'
    injection hrs' with hrs'
    subst hrs'
    rw [hc] at hrm
    obtain ⟨p, hp, rfl⟩ := List.mem_map.1 hrm
    have hp := List.mem_filter.1 hp
    rw [toRef_leaf] at hrl
    unfold Ref.lloc
    rw [toRef_leaf]
    exact h a x b he hx v hv hvl ps' (paths_of_pathsN hl hps') p hp.1 (of_decide_eq_true hp.2) hrl

theorem perm_split {α : Type} (f : α → Bool) (l : List α) : (l.filter f ++ l.filter fun x => !f x).Perm l :=
  List.filter_append_perm f l

theorem good_iff {lib : Lib} {n : Nat} {vs : List V} {rs : List Ref} {ps : List (List V)} (hr : refsAll lib n vs = some rs)
    (hp : pathsN lib (n + 1) vs = some ps) : Good (growAll (core empty) rs).1.entries (growAll (core empty) rs).2.entries ↔
      (ps.map fun p => (last p).std).Nodup ∧ (∀ p ∈ ps, (last p).std ≠ constName) ∧ (vs.map fun v => lower v.loc).Nodup ∧
        ((ps.filter fun p => 2 ≤ p.length).map fun p => lower (last p).loc).Nodup := by
  obtain ⟨e1, e2⟩ := comps_mem hr hp
  obtain ⟨ps', h1, h2, h3, h4⟩ := refsAll_paths (refsAll_known hr) rs hr
  rw [hp] at h1
  injection h1 with h1
  subst h1
  have hperm : (vs.map Ref.var ++ (ps.filter fun p => 2 ≤ p.length).map toRef).Perm (ps.map toRef) := by
    rw [← h2, ← h3]
    exact (perm_split _ _).trans h4
  rw [e1, e2]
  have f1 : ((ps.map toRef).map fun r => r.leaf.std) = ps.map fun p => (last p).std := by
    rw [List.map_map]
    apply List.map_congr_left
    intro p _
    show (toRef p).leaf.std = _
    rw [toRef_leaf]
  have f2 : ((vs.map Ref.var).map Ref.lloc) = vs.map fun v => lower v.loc := by
    rw [List.map_map]; rfl
  have f3 : (((ps.filter fun p => 2 ≤ p.length).map toRef).map Ref.lloc) =
      (ps.filter fun p => 2 ≤ p.length).map fun p => lower (last p).loc := by
    rw [List.map_map]
    apply List.map_congr_left
    intro p _
    show lower (toRef p).leaf.loc = _
    rw [toRef_leaf]
  constructor
  · intro h
    refine ⟨?_, ?_, ?_, ?_⟩
    · rw [← f1, ← (hperm.map _).nodup_iff]; exact h.stds
    · intro p hpm
      have := h.const (toRef p) (hperm.mem_iff.2 (List.mem_map.2 ⟨p, hpm, rfl⟩))
      rwa [toRef_leaf] at this
    · rw [← f2]; exact h.vars
    · rw [← f3]; exact h.comps
  · rintro ⟨a, b, c, d⟩
    refine ⟨?_, ?_, ?_, ?_⟩
    · rw [(hperm.map _).nodup_iff, f1]; exact a
    · intro r hrm
      obtain ⟨p, hpm, rfl⟩ := List.mem_map.1 (hperm.mem_iff.1 hrm)
      rw [toRef_leaf]
      exact b p hpm
    · rw [f2]; exact c
    · rw [f3]; exact d

/-- C67: a host is accepted exactly if types have distinct names and do not contain themselves, the types of variables are
known, there are only module and host headers, standard names are distinct over all variables and components, local names are
distinct among variables and among components, and no loop variable shares its local name with a loop component. -/
theorem C67_accepted_iff (lib : Lib) (headers : List Header) (const : Option (Str × V)) :
    (∃ fuel H, build fuel lib headers const = some H) ↔ ∃ ps, Acceptable lib headers const ps := by
  constructor
  · rintro ⟨n, h⟩
    obtain ⟨hl, hk, rs, h1, h2, h3⟩ := (build_iff lib n headers const).1 h
    have hkn := refsAll_known h1
    obtain ⟨ps, hp, _⟩ := refsAll_paths hkn rs h1
    obtain ⟨g1, g2, g3, g4⟩ := (good_iff h1 hp).1 h2
    obtain ⟨r0, hr0⟩ : ∃ r, refsAll lib n (headers.flatMap (·.vars)) = some r := refsAll_prefix h1
    exact ⟨ps, hl, hk, fun v hv => known_iff.1 (hkn v hv), paths_of_pathsN hl hp, g1, g2, g3, g4, (noLoopClash_iff hl hr0).1 h3⟩
  · rintro ⟨ps, ha⟩
    obtain ⟨n, hn⟩ := pathsN_of_paths ha.titles ha.paths
    obtain ⟨rs, hrs⟩ := refsAll_of_paths (fun v hv => known_iff.2 (ha.known v hv)) hn
    obtain ⟨r0, hr0⟩ : ∃ r, refsAll lib n (headers.flatMap (·.vars)) = some r := refsAll_prefix hrs
    refine ⟨n, (build_iff lib n headers const).2 ⟨ha.titles, ha.kinds, rs, hrs, ?_, ?_⟩⟩
    · exact (good_iff hrs hn).2 ⟨ha.stdNames, ha.constant, ha.locals, ha.components⟩
    · exact (noLoopClash_iff ha.titles hr0).2 ha.loops

theorem build_entries {lib : Lib} {n : Nat} {headers : List Header} {const : Option (Str × V)} {h : Host} {ps : List (List V)}
    (hh : build n lib headers const = some h) (hp : Paths lib (variablesOf headers const) ps) :
    h.vars.entries = (variablesOf headers const).map .var ∧ h.comps.entries = (ps.filter fun p => 2 ≤ p.length).map toRef ∧
      (h.vars.entries ++ h.comps.entries).Perm (ps.map toRef) ∧ Good h.vars.entries h.comps.entries ∧
      h.modules = modsBuild headers const := by
  obtain ⟨hl, _, rs, h1, h2, _⟩ := (build_iff lib n headers const).1 ⟨h, hh⟩
  obtain ⟨rs', h1', hc, hm⟩ := build_core hh
  rw [h1] at h1'
  injection h1' with h1'
  subst h1'
  obtain ⟨ps', hp', f1, f2, f3⟩ := refsAll_paths (refsAll_known h1) rs h1
  have := paths_unique hl hp (paths_of_pathsN hl hp')
  subst this
  obtain ⟨e1, e2⟩ := comps_mem h1 hp'
  have c1 : h.vars = (growAll (core empty) rs).1 := congrArg (·.1) hc
  have c2 : h.comps = (growAll (core empty) rs).2 := congrArg (·.2) hc
  rw [c1, c2]
  refine ⟨e1, e2, ?_, h2, hm⟩
  rw [e1, e2, ← f1, ← f2]
  exact (perm_split _ _).trans f3

theorem nodup_map_eq {α β : Type} {f : α → β} {l : List α} (h : (l.map f).Nodup) {a b : α} (ha : a ∈ l) (hb : b ∈ l)
    (he : f a = f b) : a = b := by
  induction l with
  | nil => cases ha
  | cons x l ih =>
    rw [List.map_cons, List.nodup_cons] at h
    rcases List.mem_cons.1 ha with e | ha' <;> rcases List.mem_cons.1 hb with e' | hb'
    · rw [e, e']
    · exact absurd (List.mem_map.2 ⟨b, hb', by rw [← he, e]⟩) h.1
    · exact absurd (List.mem_map.2 ⟨a, ha', by rw [he, e']⟩) h.1
    · exact ih h.2 ha' hb'

theorem find_mem {h : Host} (hg : Good h.vars.entries h.comps.entries) {r : Ref} (hr : r ∈ h.vars.entries ++ h.comps.entries) :
    h.find r.leaf.std = some r := by
  unfold Host.find
  rw [if_neg (hg.const r hr)]
  have uniq : ∀ q ∈ h.vars.entries ++ h.comps.entries, q.leaf.std = r.leaf.std → q = r := by
    intro q hq he
    have := hg.stds
    exact nodup_map_eq this hq hr he
  unfold Dict.get
  cases h1 : h.vars.entries.find? fun x => x.leaf.std == r.leaf.std with
  | some q =>
    have hq := List.mem_of_find?_eq_some h1
    have he := List.find?_some (p := fun x : Ref => x.leaf.std == r.leaf.std) h1
    rw [uniq q (List.mem_append_left _ hq) (beq_iff_eq.1 he)]
  | none =>
    simp only
    rcases List.mem_append.1 hr with hr | hr
    · rw [List.find?_eq_none] at h1
      exact absurd (h1 r hr) (by simp)
    · cases h2 : h.comps.entries.find? fun x => x.leaf.std == r.leaf.std with
      | some q =>
        have hq := List.mem_of_find?_eq_some h2
        have he := List.find?_some (p := fun x : Ref => x.leaf.std == r.leaf.std) h2
        rw [uniq q (List.mem_append_right _ hq) (beq_iff_eq.1 he)]
      | none =>
        rw [List.find?_eq_none] at h2
        exact absurd (h2 r hr) (by simp)

theorem find_some_mem {h : Host} {s : Str} (hs : s ≠ constName) {r : Ref} (hf : h.find s = some r) :
    r ∈ h.vars.entries ++ h.comps.entries ∧ r.leaf.std = s := by
  unfold Host.find at hf
  rw [if_neg hs] at hf
  unfold Dict.get at hf
  cases h1 : h.vars.entries.find? fun x => x.leaf.std == s with
  | some q =>
    rw [h1] at hf
    injection hf with hf
    subst hf
    exact ⟨List.mem_append_left _ (List.mem_of_find?_eq_some h1),
      beq_iff_eq.1 (List.find?_some (p := fun x : Ref => x.leaf.std == s) h1)⟩
  | none =>
    rw [h1] at hf
    simp only at hf
    exact ⟨List.mem_append_right _ (List.mem_of_find?_eq_some hf),
      beq_iff_eq.1 (List.find?_some (p := fun x : Ref => x.leaf.std == s) hf)⟩

/-- C67: every variable and every component of a host is found under its standard name, and nothing else is but a constant. -/
theorem C67_lookup {lib : Lib} {fuel : Nat} {headers : List Header} {const : Option (Str × V)} {H : Host} {ps : List (List V)}
    (hb : build fuel lib headers const = some H) (hp : Paths lib (variablesOf headers const) ps) :
    (∀ p ∈ ps, ∃ r, H.find (last p).std = some r ∧ r.leaf = last p ∧ r.own = root p) ∧
    (∀ s, (H.find s).isSome = true ↔ s = "ccpp_constant_one".toList ∨ ∃ p ∈ ps, (last p).std = s) := by
  obtain ⟨_, _, hperm, hg, _⟩ := build_entries hb hp
  have fwd : ∀ p ∈ ps, ∃ r, H.find (last p).std = some r ∧ r.leaf = last p ∧ r.own = root p := by
    intro p hpm
    have := find_mem hg (r := toRef p) (hperm.mem_iff.2 (List.mem_map.2 ⟨p, hpm, rfl⟩))
    rw [toRef_leaf] at this
    exact ⟨toRef p, this, toRef_leaf p, toRef_own p⟩
  refine ⟨fwd, fun s => ?_⟩
  constructor
  · intro h
    by_cases hs : s = constName
    · exact Or.inl hs
    · obtain ⟨r, hr⟩ := Option.isSome_iff_exists.1 h
      obtain ⟨hm, he⟩ := find_some_mem hs hr
      obtain ⟨p, hpm, rfl⟩ := List.mem_map.1 (hperm.mem_iff.1 hm)
      rw [toRef_leaf] at he
      exact Or.inr ⟨p, hpm, he⟩
  · rintro (rfl | ⟨p, hpm, rfl⟩)
    · show (H.find constName).isSome = true
      unfold Host.find
      rw [if_pos rfl]
      rfl
    · obtain ⟨r, hr, _⟩ := fwd p hpm
      rw [hr]
      rfl

end Ccpp.HM
