import Verif.Props.HostModelRef
import Verif.Props.MetadataVarLine
/-!
# C68: the imports of a host cap
-/
namespace Ccpp.HM

/-! ## The bound on the recursion does not matter -/

theorem refsAll_mono {lib : Lib} {n m : Nat} (hnm : n ≤ m) {vs : List V} {rs : List Ref} (h : refsAll lib n vs = some rs) :
    refsAll lib m vs = some rs := by
  induction vs generalizing rs with
  | nil => exact h
  | cons v vs ih =>
    rw [refsAll, Option.bind_eq_some_iff] at h
    obtain ⟨a, h1, h2⟩ := h
    rw [Option.map_eq_some_iff] at h2
    obtain ⟨b, h2, rfl⟩ := h2
    have : refsOf lib m v = some a := by
      unfold refsOf at h1 ⊢
      split at h1
      · rename_i hd
        rw [if_pos hd]
        rw [Option.bind_eq_some_iff] at h1
        obtain ⟨fs, e1, e2⟩ := h1
        rw [Option.map_eq_some_iff] at e2
        obtain ⟨ps, e2, rfl⟩ := e2
        rw [e1, Option.bind_some, pathsN_mono hnm e2]
        rfl
      · rename_i hd
        rw [if_neg hd]
        exact h1
    rw [refsAll, this, ih h2]
    rfl

theorem addVars_mono {lib : Lib} {n k : Nat} (hnk : n ≤ k) {m : Option Str} {h h' : Host} {vs : List V}
    (hh : Host.addVars lib n m h vs = some h') : Host.addVars lib k m h vs = some h' := by
  rw [addVars_eq, Option.bind_eq_some_iff] at hh
  obtain ⟨rs, h1, h2⟩ := hh
  rw [addVars_eq, refsAll_mono hnk h1]
  exact h2

theorem addHeader_mono {lib : Lib} {n k : Nat} (hnk : n ≤ k) {h h' : Host} {x : Header}
    (hh : h.addHeader lib n x = some h') : h.addHeader lib k x = some h' := by
  obtain ⟨kd, vs⟩ := x
  cases kd with
  | module_ m => exact addVars_mono hnk hh
  | other => exact hh
  | host =>
    rw [addHeader_host (x := ⟨.host, vs⟩) trivial] at hh ⊢
    rw [Option.bind_eq_some_iff] at hh
    obtain ⟨h1, e1, e2⟩ := hh
    rw [addVars_mono hnk e1]
    exact e2

theorem addHeaders_mono {lib : Lib} {n k : Nat} (hnk : n ≤ k) {h h' : Host} {xs : List Header}
    (hh : Host.addHeaders lib n h xs = some h') : Host.addHeaders lib k h xs = some h' := by
  induction xs generalizing h with
  | nil => exact hh
  | cons x xs ih =>
    rw [Host.addHeaders, Option.bind_eq_some_iff] at hh
    obtain ⟨h1, e1, e2⟩ := hh
    rw [Host.addHeaders, addHeader_mono hnk e1]
    exact ih e2

/-- C67: the bound on the recursion does not matter. -/
theorem C67_bound {lib : Lib} {n k : Nat} (hnk : n ≤ k) {headers : List Header} {const : Option (Str × V)} {H : Host}
    (hb : build n lib headers const = some H) : build k lib headers const = some H := by
  unfold build at hb ⊢
  split at hb
  · rename_i hl
    rw [if_pos hl]
    rw [Option.bind_eq_some_iff] at hb
    obtain ⟨h1, e1, e2⟩ := hb
    rw [addHeaders_mono hnk e1, Option.bind_some]
    cases const with
    | none => exact e2
    | some cv => exact addVars_mono hnk e2
  · cases hb

/-! ## Indices -/

theorem commaJoin_joined (l : List Str) : FDecl.commaJoin l = joined ",".toList l := by
  induction l with
  | nil => rfl
  | cons x l ih =>
    cases l with
    | nil => rfl
    | cons y l =>
      rw [joined, ← ih, List.append_assoc]
      rfl

theorem index_colon {d : Str} (h : MF.Index d) : ':' ∈ d ↔ d = [':'] := by
  constructor
  · intro hm
    rcases h with rfl | h | ⟨_, h⟩
    · rfl
    · exact absurd hm (MF.IsName.mem h (by decide))
    · exact absurd (h _ hm) (by decide)
  · rintro rfl
    simp

theorem strip_colon {r : Str} : ':' ∈ strip r ↔ ':' ∈ r := Env.mem_strip_iff (by decide)

theorem refIndices_iff (loc i : Str) : i ∈ refIndices loc ↔ IndexIn loc i := by
  unfold refIndices
  constructor
  · intro h
    split at h
    · rename_i g1 g2 hg
      obtain ⟨b, raw, dims, hs, hn, hb, _, h7, hi, hd⟩ := MF.refGroups_some hg
      obtain ⟨f1, f2, f3⟩ := hi.facts
      obtain ⟨y, hy, rfl⟩ := List.mem_map.1 h
      have hy := List.mem_filter.1 hy
      have hyd : strip y ∈ raw.map strip := by
        rw [f1, ← hd]
        exact List.mem_map.2 ⟨y, hy.1, rfl⟩
      refine ⟨g1, b, raw, hn, hb, ?_, ?_, ?_, hyd, ?_⟩
      · rw [hs, ← commaJoin_joined]
        show _ = g1 ++ b ++ ['('] ++ _ ++ [')']
        simp
      · rw [← f1, List.length_map] at h7
        exact h7
      · intro r hr
        rw [List.all_eq_true] at f2
        exact (MF.isDim_iff _).1 (f2 _ (by rw [← f1]; exact List.mem_map.2 ⟨r, hr, rfl⟩))
      · intro he
        have hc : ':' ∈ strip y := by rw [he]; decide
        have := hy.2
        simp only [decide_eq_true_eq] at this
        exact this (strip_colon.1 hc)
    · cases h
  · rintro ⟨name, b, raw, hn, hb, rfl, h7, hi, hm, hne⟩
    have hdims : MF.Indices raw (raw.map strip) := by
      apply MF.Indices.of
      rw [List.all_eq_true]
      intro d hd
      obtain ⟨r, hr, rfl⟩ := List.mem_map.1 hd
      exact (MF.isDim_iff _).2 (hi r hr)
    have hnil : raw.map strip ≠ [] := by
      intro h0
      rw [h0] at hm
      cases hm
    obtain ⟨g1, g2⟩ := MF.refGroups_of (r := []) hn hb hnil (by rw [List.length_map]; exact h7) hdims
    have e : name ++ b ++ "(".toList ++ joined ",".toList raw ++ ")".toList = name ++ b ++ '(' :: (FDecl.commaJoin raw ++ [')']) := by
      rw [commaJoin_joined]
      show name ++ b ++ ['('] ++ _ ++ [')'] = _
      simp
    rw [e, g1]
    simp only
    rw [← g2] at hm
    obtain ⟨y, hy, rfl⟩ := List.mem_map.1 hm
    refine List.mem_map.2 ⟨y, List.mem_filter.2 ⟨hy, ?_⟩, rfl⟩
    simp only [decide_eq_true_eq]
    intro hc
    have hidx : MF.Index (strip y) := by
      have : strip y ∈ raw.map strip := by rw [← g2]; exact List.mem_map.2 ⟨y, hy, rfl⟩
      obtain ⟨r, hr, he⟩ := List.mem_map.1 this
      rw [← he]
      exact hi r hr
    exact hne ((index_colon hidx).1 (strip_colon.2 hc))

/-! ## Requests -/

theorem fold_none {α β : Type} (f : β → α → Option β) (l : List α) : l.foldl (fun o i => o.bind fun u => f u i) (none : Option β) = none := by
  induction l with
  | nil => rfl
  | cons x l ih => exact ih

/-- Names used by requests and their indices. -/
def UsedBy (h : Host) (l : List Str) (x : Str) : Prop := ∃ s r, Wanted h.find l s ∧ h.find s = some r ∧ x = r.own.loc

theorem wanted_mono {find : Str → Option Ref} {l l' : List Str} (h : ∀ s ∈ l, Wanted find l' s) {s : Str} (hw : Wanted find l s) :
    Wanted find l' s := by
  induction hw with
  | asked hm => exact h _ hm
  | index _ hf hi ih => exact .index ih hf hi

theorem wanted_cons {find : Str → Option Ref} {i : Str} {l : List Str} {s : Str} :
    Wanted find (i :: l) s ↔ Wanted find [i] s ∨ Wanted find l s := by
  constructor
  · intro h
    induction h with
    | asked hm =>
      rcases List.mem_cons.1 hm with rfl | hm
      · exact Or.inl (.asked (List.mem_cons_self ..))
      · exact Or.inr (.asked hm)
    | index _ hf hi ih =>
      rcases ih with ih | ih
      · exact Or.inl (.index ih hf hi)
      · exact Or.inr (.index ih hf hi)
  · rintro (h | h)
    · refine wanted_mono ?_ h
      intro s hs
      rw [List.mem_singleton] at hs
      subst hs
      exact .asked (List.mem_cons_self ..)
    · exact wanted_mono (fun s hs => .asked (List.mem_cons_of_mem _ hs)) h

theorem usedBy_cons {h : Host} {i : Str} {l : List Str} {x : Str} : UsedBy h (i :: l) x ↔ UsedBy h [i] x ∨ UsedBy h l x := by
  unfold UsedBy
  constructor
  · rintro ⟨s, r, hw, h1, h2⟩
    rcases wanted_cons.1 hw with hw | hw
    · exact Or.inl ⟨s, r, hw, h1, h2⟩
    · exact Or.inr ⟨s, r, hw, h1, h2⟩
  · rintro (⟨s, r, hw, h1, h2⟩ | ⟨s, r, hw, h1, h2⟩)
    · exact ⟨s, r, wanted_cons.2 (Or.inl hw), h1, h2⟩
    · exact ⟨s, r, wanted_cons.2 (Or.inr hw), h1, h2⟩

theorem usedBy_nil {h : Host} {x : Str} : ¬ UsedBy h [] x := by
  rintro ⟨s, r, hw, _, _⟩
  have : ∀ s, ¬ Wanted h.find [] s := by
    intro s hw
    induction hw with
    | asked hm => cases hm
    | index _ _ _ ih => exact ih
  exact this s hw

theorem usedBy_one {h : Host} {s x : Str} {r : Ref} (hf : h.find s = some r) : UsedBy h [s] x ↔
    x = r.own.loc ∨ UsedBy h (refIndices r.leaf.loc) x := by
  constructor
  · rintro ⟨s', r', hw, h1, h2⟩
    have : s' = s ∨ Wanted h.find (refIndices r.leaf.loc) s' := by
      clear h1 h2
      induction hw with
      | asked hm => exact Or.inl (List.mem_singleton.1 hm)
      | index _ hf' hi ih =>
        right
        rcases ih with rfl | ih
        · rw [hf] at hf'
          injection hf' with hf'
          subst hf'
          exact .asked ((refIndices_iff _ _).2 hi)
        · exact .index ih hf' hi
    rcases this with rfl | hw'
    · rw [hf] at h1
      injection h1 with h1
      subst h1
      exact Or.inl h2
    · exact Or.inr ⟨s', r', hw', h1, h2⟩
  · rintro (rfl | ⟨s', r', hw, h1, h2⟩)
    · exact ⟨s, r, .asked (List.mem_cons_self ..), hf, rfl⟩
    · refine ⟨s', r', wanted_mono ?_ hw, h1, h2⟩
      intro i hi
      exact .index (.asked (List.mem_cons_self ..)) hf ((refIndices_iff _ _).1 hi)

theorem usedBy_missing {h : Host} {s x : Str} (hf : h.find s = none) : ¬ UsedBy h [s] x := by
  rintro ⟨s', r', hw, h1, _⟩
  have : s' = s := by
    clear h1
    induction hw with
    | asked hm => exact List.mem_singleton.1 hm
    | index _ hf' _ ih =>
      subst ih
      rw [hf] at hf'
      cases hf'
  subst this
  rw [hf] at h1
  cases h1

theorem fold_used {h : Host} {n : Nat} (hreq : ∀ u u' s, h.request n u s = some u' → ∀ x, x ∈ u'.used ↔ x ∈ u.used ∨ UsedBy h [s] x)
    (l : List Str) (u u' : Use) (hf : l.foldl (fun (o : Option Use) i => o.bind fun u => h.request n u i) (some u) = some u') :
    ∀ x, x ∈ u'.used ↔ x ∈ u.used ∨ UsedBy h l x := by
  induction l generalizing u with
  | nil =>
    injection hf with hf
    subst hf
    intro x
    simp [usedBy_nil]
  | cons i l ih =>
    rw [List.foldl_cons, Option.bind_some] at hf
    cases hq : h.request n u i with
    | none => rw [hq, fold_none] at hf; cases hf
    | some u1 =>
      rw [hq] at hf
      intro x
      rw [ih u1 hf x, hreq u u1 i hq x, usedBy_cons (l := l), or_assoc]

theorem request_used {h : Host} {n : Nat} {u u' : Use} {s : Str} (hr : h.request n u s = some u') :
    ∀ x, x ∈ u'.used ↔ x ∈ u.used ∨ UsedBy h [s] x := by
  induction n generalizing u u' s with
  | zero => cases hr
  | succ n ih =>
    rw [Host.request] at hr
    cases hf : h.find s with
    | none =>
      rw [hf] at hr
      injection hr with hr
      subst hr
      intro x
      simp [usedBy_missing hf]
    | some r =>
      rw [hf] at hr
      simp only [Option.map_eq_some_iff] at hr
      obtain ⟨u1, h1, rfl⟩ := hr
      intro x
      have := fold_used (fun u u' s => ih) _ _ _ h1 x
      rw [usedBy_one hf, List.mem_cons, this]
      constructor
      · rintro (h | h | h)
        · exact Or.inr (Or.inl h)
        · exact Or.inl h
        · exact Or.inr (Or.inr h)
      · rintro (h | h | h)
        · exact Or.inr (Or.inl h)
        · exact Or.inl h
        · exact Or.inr (Or.inr h)

theorem requests_used {h : Host} {n : Nat} {u u' : Use} {l : List Str} (hr : h.requests n u l = some u') :
    ∀ x, x ∈ u'.used ↔ x ∈ u.used ∨ UsedBy h l x :=
  fold_used (fun _ _ _ => request_used) l u u' hr

/-! ## Modules -/

def lookup (l : List (Str × Str)) (k : Str) : Option Str := (l.find? fun x => x.1 == k).map (·.2)

theorem lookup_set (l : List (Str × Str)) (k v k' : Str) : lookup (setModule l k v) k' = if k = k' then some v else lookup l k' := by
  unfold lookup setModule
  rw [List.find?_cons]
  by_cases h : k = k'
  · subst h; simp
  · rw [if_neg h]
    simp only [beq_eq_false_iff_ne.2 h]
    congr 1
    induction l with
    | nil => rfl
    | cons x l ih =>
      rw [List.filter_cons]
      by_cases hx : x.1 = k
      · rw [if_neg (by simp [hx]), List.find?_cons, ih]
        simp only [hx, beq_eq_false_iff_ne.2 h]
      · rw [if_pos (by simp [hx]), List.find?_cons, List.find?_cons, ih]

def pairs (m : Str) (vs : List V) : List (Str × Str) := vs.map fun v => (v.loc, m)

def Header.pairs (x : Header) : List (Str × Str) :=
  match x.kind with
  | .module_ m => HM.pairs m x.vars
  | _ => []

def setAll (l a : List (Str × Str)) : List (Str × Str) := a.foldl (fun l p => setModule l p.1 p.2) l

theorem modulesOf_some (m : Str) (l : List (Str × Str)) (vs : List V) : modulesOf (some m) l vs = setAll l (pairs m vs) := by
  induction vs generalizing l with
  | nil => rfl
  | cons v vs ih => exact ih _

theorem modsAll_eq (l : List (Str × Str)) (xs : List Header) : modsAll l xs = setAll l (xs.flatMap Header.pairs) := by
  induction xs generalizing l with
  | nil => rfl
  | cons x xs ih =>
    rw [List.flatMap_cons]
    unfold setAll
    rw [List.foldl_append]
    show modsAll (x.mods l) xs = setAll (setAll l x.pairs) _
    rw [ih]
    congr 1
    obtain ⟨kd, vs⟩ := x
    cases kd with
    | module_ m => exact modulesOf_some ..
    | host => rfl
    | other => rfl

def allPairs (headers : List Header) (const : Option (Str × V)) : List (Str × Str) :=
  headers.flatMap Header.pairs ++ (const.map fun c => (c.2.loc, c.1)).toList

theorem modsBuild_eq (headers : List Header) (const : Option (Str × V)) : modsBuild headers const = setAll [] (allPairs headers const) := by
  unfold modsBuild allPairs
  cases const with
  | none =>
    rw [modsAll_eq]
    simp
  | some c =>
    show modulesOf (some c.1) (modsAll [] headers) [c.2] = _
    rw [modsAll_eq, modulesOf_some]
    unfold setAll
    rw [List.foldl_append]
    rfl

theorem lookup_setAll (a : List (Str × Str)) (hn : (a.map (·.1)).Nodup) (l : List (Str × Str)) (k v : Str) :
    lookup (setAll l a) k = some v ↔ (k, v) ∈ a ∨ (k ∉ a.map (·.1) ∧ lookup l k = some v) := by
  induction a generalizing l with
  | nil => simp [setAll]
  | cons p a ih =>
    rw [List.map_cons, List.nodup_cons] at hn
    show lookup (setAll (setModule l p.1 p.2) a) k = some v ↔ _
    rw [ih hn.2, lookup_set]
    obtain ⟨pk, pv⟩ := p
    simp only [List.map_cons, List.mem_cons, Prod.mk.injEq]
    by_cases h : pk = k
    · subst h
      simp only [if_true, true_and, true_or, not_true, false_and, or_false, Option.some.injEq]
      constructor
      · rintro (h | ⟨_, h⟩)
        · exact Or.inr h
        · exact Or.inl h.symm
      · rintro (h | h)
        · exact Or.inr ⟨hn.1, h.symm⟩
        · exact Or.inl h
    · rw [if_neg h]
      have h' : k ≠ pk := fun e => h e.symm
      simp only [h', false_and, false_or]

theorem pairs_mem {headers : List Header} {k m : Str} : (k, m) ∈ headers.flatMap Header.pairs ↔ ∃ v, InModule headers m v ∧ v.loc = k := by
  rw [List.mem_flatMap]
  unfold InModule
  constructor
  · rintro ⟨x, hx, h⟩
    obtain ⟨kd, vs⟩ := x
    cases kd with
    | module_ n =>
      obtain ⟨v, hv, he⟩ := List.mem_map.1 h
      injection he with e1 e2
      exact ⟨v, ⟨_, hx, e2, hv⟩, e1⟩
    | host => cases h
    | other => cases h
  · rintro ⟨v, ⟨x, hx, hk, hv⟩, he⟩
    refine ⟨x, hx, ?_⟩
    obtain ⟨kd, vs⟩ := x
    cases kd with
    | module_ n =>
      have hk : n = m := hk
      subst hk
      exact List.mem_map.2 ⟨v, hv, by rw [he]⟩
    | host => exact absurd hk id
    | other => exact absurd hk id

theorem pairs_sub (headers : List Header) (const : Option (Str × V)) :
    ((allPairs headers const).map (·.1)).Sublist ((variablesOf headers const).map (·.loc)) := by
  unfold allPairs variablesOf
  rw [List.map_append, List.map_append]
  apply List.Sublist.append
  · induction headers with
    | nil => exact List.Sublist.refl _
    | cons x xs ih =>
      rw [List.flatMap_cons, List.flatMap_cons, List.map_append, List.map_append]
      refine List.Sublist.append ?_ ih
      obtain ⟨kd, vs⟩ := x
      cases kd with
      | module_ m =>
        show ((vs.map fun v => (v.loc, m)).map (·.1)).Sublist (vs.map (·.loc))
        rw [List.map_map]
        exact List.Sublist.refl _
      | host => exact List.nil_sublist _
      | other => exact List.nil_sublist _
  · cases const with
    | none => exact List.Sublist.refl _
    | some c => exact List.Sublist.refl _

theorem lower_nodup {vs : List V} (h : (vs.map fun v => lower v.loc).Nodup) : (vs.map fun v => v.loc).Nodup := by
  have : (vs.map fun v => lower v.loc) = (vs.map fun v => v.loc).map lower := by rw [List.map_map]; rfl
  rw [this] at h
  generalize (vs.map fun v => v.loc) = l at h
  induction l with
  | nil => exact List.nodup_nil
  | cons a l ih =>
    rw [List.map_cons, List.nodup_cons] at h
    exact List.nodup_cons.2 ⟨fun hm => h.1 (List.mem_map.2 ⟨a, hm, rfl⟩), ih h.2⟩

/-- C68: exactly the module variables that are requested, have a requested component, or are indices of an array reference that is
requested are imported, each one from its module; those of the cap itself are not. -/
theorem C68_imports_partial {lib : Lib} {fuel n : Nat} {headers : List Header} {const : Option (Str × V)} {H : Host} {ps : List (List V)}
    {cap : Str} {reqs : List Str} {u : Use}
    (hb : build fuel lib headers const = some H) (hp : Paths lib (variablesOf headers const) ps) (hc : ∀ c ∈ const, c.1 = cap)
    (h1 : ∀ v ∈ variablesOf headers const, v.loc ≠ "1".toList) (hr : H.requests n ⟨[], []⟩ reqs = some u) (m l : Str) :
    (m, l) ∈ H.locations cap u ↔ m ≠ [] ∧ m ≠ cap ∧
      ∃ p ∈ ps, Wanted H.find reqs (last p).std ∧ InModule headers m (root p) ∧ (root p).loc = l := by
  obtain ⟨ev, ec, hperm, hg, hm⟩ := build_entries hb hp
  have hloc : ((variablesOf headers const).map fun v => v.loc).Nodup := by
    apply lower_nodup
    have := hg.vars
    rw [ev, List.map_map] at this
    exact this
  have hkeys : ((allPairs headers const).map (·.1)).Nodup := List.Nodup.sublist (pairs_sub headers const) hloc
  have hmod : ∀ k, H.moduleOf k = some m ↔ (k, m) ∈ allPairs headers const := by
    intro k
    show lookup H.modules k = some m ↔ _
    rw [hm, modsBuild_eq, lookup_setAll _ hkeys]
    simp [lookup]
  have hused : ∀ x, x ∈ u.used ↔ UsedBy H reqs x := by
    intro x
    rw [requests_used hr x]
    simp
  have hfind : ∀ p ∈ ps, H.find (last p).std = some (toRef p) := by
    intro p hpm
    have := find_mem hg (r := toRef p) (hperm.mem_iff.2 (List.mem_map.2 ⟨p, hpm, rfl⟩))
    rwa [toRef_leaf] at this
  have hroot : ∀ p ∈ ps, root p ∈ variablesOf headers const := by
    have key : ∀ {vs : List V} {ps}, Paths lib vs ps → ∀ p ∈ ps, root p ∈ vs := by
      intro vs ps hps
      induction hps with
      | nil => intro p hp; cases hp
      | leaf _ _ ih =>
        intro p hp
        rcases List.mem_cons.1 hp with rfl | hp
        · exact List.mem_cons_self ..
        · exact List.mem_cons_of_mem _ (ih p hp)
      | node _ _ _ _ _ ih =>
        intro p hp
        rcases List.mem_append.1 hp with hp | hp
        · obtain ⟨q, _, rfl⟩ := List.mem_map.1 hp
          exact List.mem_cons_self ..
        · rcases List.mem_cons.1 hp with rfl | hp
          · exact List.mem_cons_self ..
          · exact List.mem_cons_of_mem _ (ih p hp)
    exact key hp
  have hin : ∀ v, InModule headers m v → v ∈ variablesOf headers const := by
    rintro v ⟨x, hx, _, hv⟩
    exact List.mem_append_left _ (List.mem_flatMap.2 ⟨x, hx, hv⟩)
  unfold Host.locations
  rw [List.mem_filterMap]
  constructor
  · rintro ⟨k, hk, he⟩
    split at he
    · rename_i m' hm'
      split at he
      · rename_i hcond
        injection he with he
        injection he with e1 e2
        subst e1
        subst e2
        refine ⟨hcond.1, hcond.2.2, ?_⟩
        have hpair : (k, m') ∈ headers.flatMap Header.pairs := by
          rcases List.mem_append.1 ((hmod k).1 hm') with h | h
          · exact h
          · cases const with
            | none => cases h
            | some c =>
              exfalso
              have h : (k, m') ∈ [(c.2.loc, c.1)] := h
              rw [List.mem_singleton] at h
              injection h with _ h2
              exact hcond.2.2 (h2.trans (hc c rfl))
        obtain ⟨v, hvm, hvl⟩ := pairs_mem.1 hpair
        obtain ⟨s, r, hw, hf, hx⟩ := (hused k).1 hcond.2.1
        by_cases hs : s = constName
        · exfalso
          subst hs
          have : H.find constName = some (.var constVar) := by unfold Host.find; rw [if_pos rfl]
          rw [this] at hf
          injection hf with hf
          subst hf
          exact h1 v (hin v hvm) (hvl.trans hx)
        · obtain ⟨hmem, hstd⟩ := find_some_mem hs hf
          obtain ⟨p, hpm, rfl⟩ := List.mem_map.1 (hperm.mem_iff.1 hmem)
          rw [toRef_own] at hx
          rw [toRef_leaf] at hstd
          subst hstd
          have hvr : v = root p := nodup_map_eq hloc (hin v hvm) (hroot p hpm) (hvl.trans hx)
          subst hvr
          exact ⟨p, hpm, hw, hvm, hvl⟩
      · cases he
    · cases he
  · rintro ⟨n1, n2, p, hpm, hw, hvm, hvl⟩
    refine ⟨l, ?_, ?_⟩
    · rw [ev]
      exact List.mem_map.2 ⟨.var (root p), List.mem_map.2 ⟨root p, hroot p hpm, rfl⟩, hvl⟩
    · have e1 : H.moduleOf l = some m := (hmod l).2 (List.mem_append_left _ (pairs_mem.2 ⟨root p, hvm, hvl⟩))
      have e2 : l ∈ u.used := (hused l).2 ⟨_, _, hw, hfind p hpm, by rw [toRef_own]; exact hvl.symm⟩
      rw [e1]
      simp only
      rw [if_pos ⟨n1, e2, n2⟩]

/-- C68: the requests end if indices of array references do not depend on themselves. -/
theorem C68_ends (H : Host) (rank : Str → Nat) (hrank : ∀ s r i, H.find s = some r → IndexIn r.leaf.loc i → rank i < rank s)
    (reqs : List Str) (u : Use) : ∃ n u', H.requests n u reqs = some u' := by
  have fold : ∀ n (l : List Str) (u : Use), (∀ u, ∀ s ∈ l, ∃ u', H.request n u s = some u') →
      ∃ u', l.foldl (fun (o : Option Use) i => o.bind fun u => H.request n u i) (some u) = some u' := by
    intro n l
    induction l with
    | nil => intro u _; exact ⟨u, rfl⟩
    | cons i l ih =>
      intro u hl
      obtain ⟨u1, h1⟩ := hl u i (List.mem_cons_self ..)
      rw [List.foldl_cons, Option.bind_some, h1]
      exact ih u1 fun u s hs => hl u s (List.mem_cons_of_mem _ hs)
  have one : ∀ n s u, rank s < n → ∃ u', H.request n u s = some u' := by
    intro n
    induction n with
    | zero => intro s u h; omega
    | succ n ih =>
      intro s u h
      rw [Host.request]
      cases hf : H.find s with
      | none => exact ⟨_, rfl⟩
      | some r =>
        obtain ⟨u1, h1⟩ := fold n (refIndices r.leaf.loc) u (fun u i hi => ih i u (by
          have := hrank s r i hf ((refIndices_iff _ _).1 hi); omega))
        simp only [h1]
        exact ⟨_, rfl⟩
  have hbound : ∃ n, ∀ s ∈ reqs, rank s < n := by
    induction reqs with
    | nil => exact ⟨0, by simp⟩
    | cons s l ih =>
      obtain ⟨n, hn⟩ := ih
      refine ⟨max n (rank s + 1), fun x hx => ?_⟩
      rcases List.mem_cons.1 hx with rfl | hx
      · omega
      · have := hn x hx; omega
  obtain ⟨n, hn⟩ := hbound
  exact ⟨n, fold n reqs u fun u s hs => one n s u (hn s hs)⟩

end Ccpp.HM
