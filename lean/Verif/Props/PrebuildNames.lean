import Verif.Props.PrebuildConv
import Verif.Props.DataTableVars
/-!
# C71: the local names of the variables of the host
-/
namespace Ccpp.PB

/-! ## Places -/

theorem module_item (m : Str) : itemPair ("MODULE_".toList ++ m) = ("MODULE".toList, m) := by
  have e : "MODULE_".toList ++ m = "MODULE".toList ++ '_' :: m := rfl
  have h := before_append (p := "MODULE".toList) (m := m) (by decide)
  unfold itemPair
  rw [e, h.1, h.2, if_pos (by simp)]

theorem type_item (m : Str) : itemPair ("TYPE_".toList ++ m) = ("TYPE".toList, m) := by
  have e : "TYPE_".toList ++ m = "TYPE".toList ++ '_' :: m := rfl
  have h := before_append (p := "TYPE".toList) (m := m) (by decide)
  unfold itemPair
  rw [e, h.1, h.2, if_pos (by simp)]

theorem no_blank {p m : Str} (hp : ' ' ∉ p) (h : ' ' ∉ m) : ' ' ∉ p ++ m := by
  rw [List.mem_append]; rintro (h' | h')
  · exact hp h'
  · exact h h'

theorem place_decode {v : Var} {m ty : Str} (h : Place v m ty) : ∃ c, v.container.bind decodeDict = some c ∧
    lookupLast "MODULE".toList c = some m ∧ (lookupLast "TYPE".toList c).getD m = ty := by
  obtain ⟨hm, ⟨h1, rfl⟩ | ⟨ht, h1⟩⟩ := h
  · refine ⟨[("MODULE".toList, ty)], ?_, ?_, ?_⟩
    · rw [h1, Option.bind_some, decodeDict]
      simp only [splitOn_none (no_blank (show ' ' ∉ "MODULE_".toList by decide) hm), List.map_cons, List.map_nil, module_item]
      rfl
    · simp [lookupLast]
    · rw [lookupLast, lookupLast]
      simp
  · refine ⟨[("MODULE".toList, m), ("TYPE".toList, ty)], ?_, ?_, ?_⟩
    · have e : "MODULE_".toList ++ m ++ " TYPE_".toList ++ ty = ("MODULE_".toList ++ m) ++ ' ' :: ("TYPE_".toList ++ ty) := by
        have : " TYPE_".toList = ' ' :: "TYPE_".toList := rfl
        rw [this]; simp only [List.append_assoc, List.cons_append]
      rw [h1, Option.bind_some, decodeDict, e]
      simp only [splitOn_append (no_blank (show ' ' ∉ "MODULE_".toList by decide) hm), splitOn_none (no_blank (show ' ' ∉ "TYPE_".toList by decide) ht), List.map_cons, List.map_nil,
        module_item, type_item]
      rfl
    · simp [lookupLast]
    · simp [lookupLast]

theorem place_unique {v : Var} {m ty m' ty' : Str} (h : Place v m ty) (h' : Place v m' ty') : m = m' ∧ ty = ty' := by
  obtain ⟨c, e1, e2, e3⟩ := place_decode h
  obtain ⟨c', f1, f2, f3⟩ := place_decode h'
  rw [e1] at f1; cases f1
  rw [e2] at f2; cases f2
  exact ⟨rfl, e3.symm.trans f3⟩

/-! ## Final names -/

theorem finalIn_grows (vs : List Var) (td : Typedefs) : Grows (FinalIn vs td) := by
  intro d
  induction d with
  | zero => intro e k n _ h; exact h.elim
  | succ d ih =>
    intro e k n hde h
    cases e with
    | zero => omega
    | succ e =>
      obtain ⟨v, m, ty, hv, hk, hp, h⟩ := h
      refine ⟨v, m, ty, hv, hk, hp, h.imp id ?_⟩
      rintro ⟨ts, p, o, h1, h2, h3, h4⟩
      exact ⟨ts, p, o, h1, h2, replaced_mono (fun s o => ih e s o (by omega)) h3, h4⟩

/-- The names of the variables differ. -/
def Distinct (vs : List Var) : Prop := vs.Pairwise fun a b => a.std ≠ b.std

theorem Distinct.eq {vs : List Var} (h : Distinct vs) {v w : Var} (hv : v ∈ vs) (hw : w ∈ vs) (he : v.std = w.std) : v = w := by
  induction vs with
  | nil => cases hv
  | cons x vs ih =>
    obtain ⟨h1, h2⟩ := List.pairwise_cons.1 h
    rcases List.mem_cons.1 hv with a | a <;> rcases List.mem_cons.1 hw with b | b
    · rw [a, b]
    · subst a; exact absurd he (h1 _ b)
    · subst b; exact absurd he.symm (h1 _ a)
    · exact ih h2 a b

theorem finalIn_fun {vs : List Var} {td : Typedefs} (hd : Distinct vs) : ∀ {d e : Nat} {k n n' : Str}, FinalIn vs td d k n →
    FinalIn vs td e k n' → n = n' := by
  intro d
  induction d with
  | zero => intro e k n n' h; exact h.elim
  | succ d ih =>
    intro e k n n' h h'
    cases e with
    | zero => exact h'.elim
    | succ e =>
      obtain ⟨v, m, ty, hv, hk, hp, h⟩ := h
      obtain ⟨v', m', ty', hv', hk', hp', h'⟩ := h'
      have := hd.eq hv hv' (hk.trans hk'.symm); subst this
      obtain ⟨rfl, rfl⟩ := place_unique hp hp'
      rcases h with ⟨a1, a2⟩ | ⟨ts, p, o, a1, a2, a3, a4⟩ <;> rcases h' with ⟨b1, b2⟩ | ⟨ts', p', o', b1, b2, b3, b4⟩
      · rw [a2, b2]
      · rw [a1] at b1; cases b1
      · rw [a1] at b1; cases b1
      · rw [a1] at b1; cases b1
        rw [a2] at b2; cases b2
        rw [a4, b4, replaced_fun (F := FinalIn vs td d) (G := FinalIn vs td e) (fun _ _ _ => ih) a3 b3]

/-- **C71** A variable has at most one final name. -/
theorem C71_unique {vs : List Var} {td : Typedefs} (hd : vs.Pairwise fun a b => a.std ≠ b.std) {k n n' : Str} (h : Final vs td k n)
    (h' : Final vs td k n') : n = n' := by
  obtain ⟨d, h⟩ := h
  obtain ⟨e, h'⟩ := h'
  exact finalIn_fun hd h h'

/-! ## The recursion -/

theorem keys_setLoc (d : Dict) (k n : Str) : keys (setLoc d k n) = keys d := by
  induction d with
  | nil => rfl
  | cons e d ih =>
    rw [setLoc]
    split
    · rfl
    · simp only [keys, List.map_cons] at ih ⊢; rw [ih]

/-- The update of a list. -/
def setHead (n : Str) : List Var → List Var
  | [] => []
  | v :: l => { v with loc := n } :: l

theorem get_setLoc (d : Dict) (k n j : Str) : get (setLoc d k n) j = if j = k then (get d j).map (setHead n) else get d j := by
  induction d with
  | nil => simp [setLoc, get]
  | cons e d ih =>
    rw [setLoc]
    split
    · rename_i h
      rw [get, get]
      by_cases hj : e.1 = j
      · rw [if_pos hj, if_pos hj, if_pos (hj.symm.trans h)]
        cases e.2 <;> rfl
      · rw [if_neg hj, if_neg hj, if_neg (fun hh => hj (h.trans hh.symm))]
    · rename_i h
      rw [get, get]
      by_cases hj : e.1 = j
      · rw [if_pos hj, if_pos hj, if_neg (fun hh => h (hj.trans hh))]
      · rw [if_neg hj, if_neg hj, ih]

/-- The state of the conversion. -/
structure Inv (vs : List Var) (td : Typedefs) (K C : List Str) (st : NSt) : Prop where
  sub : ∀ k ∈ C, k ∈ st.2
  keys : keys st.1 = K
  done : ∀ k ∈ st.2, ∃ n, Final vs td k n ∧ ∃ v ∈ vs, v.std = k ∧ get st.1 k = some [{ v with loc := n }]
  todo : ∀ v ∈ vs, v.std ∉ st.2 → get st.1 v.std = some [v]
  none : ∀ k, (∀ v ∈ vs, v.std ≠ k) → get st.1 k = none

theorem inv_same {vs : List Var} {td : Typedefs} {K C : List Str} {st : NSt} (hi : Inv vs td K C st) {k : Str} {v : Var}
    (hg : get st.1 k = some [v]) : Inv vs td K C (setLoc st.1 k v.loc, st.2) := by
  have he : ∀ j, get (setLoc st.1 k v.loc) j = get st.1 j := by
    intro j
    rw [get_setLoc]
    split
    · rename_i h; rw [h, hg]; rfl
    · rfl
  refine ⟨hi.sub, (keys_setLoc _ _ _).trans hi.keys, ?_, ?_, ?_⟩
  · intro j hj
    obtain ⟨n, h1, w, h2, h3, h4⟩ := hi.done j hj
    exact ⟨n, h1, w, h2, h3, (he j).trans h4⟩
  · intro w hw hj; exact (he _).trans (hi.todo w hw hj)
  · intro j hj; exact (he j).trans (hi.none j hj)

theorem inv_set {vs : List Var} {td : Typedefs} {K C : List Str} {st : NSt} (hi : Inv vs td K C st) {v : Var} (hv : v ∈ vs)
    {n : Str} (hf : Final vs td v.std n) (hd : Distinct vs) : Inv vs td K C (setLoc st.1 v.std n, st.2 ++ [v.std]) := by
  refine ⟨fun k hk => List.mem_append_left _ (hi.sub k hk), (keys_setLoc _ _ _).trans hi.keys, ?_, ?_, ?_⟩
  · intro j hj
    by_cases hjk : j = v.std
    · subst hjk
      refine ⟨n, hf, v, hv, rfl, ?_⟩
      rw [get_setLoc, if_pos rfl]
      by_cases hm : v.std ∈ st.2
      · obtain ⟨n', _, w, hw, hs, hg⟩ := hi.done _ hm
        have := hd.eq hw hv hs; subst this
        rw [hg]; rfl
      · rw [hi.todo v hv hm]; rfl
    · have hj' : j ∈ st.2 := by
        rcases List.mem_append.1 hj with h | h
        · exact h
        · exact absurd (List.mem_singleton.1 h) hjk
      obtain ⟨n', h1, w, h2, h3, h4⟩ := hi.done j hj'
      refine ⟨n', h1, w, h2, h3, ?_⟩
      rw [get_setLoc, if_neg hjk]; exact h4
  · intro w hw hj
    have h1 : w.std ≠ v.std := fun h => hj (by simp [h])
    rw [get_setLoc, if_neg h1]
    exact hi.todo w hw fun h => hj (by simp [h])
  · intro j hj
    rw [get_setLoc, if_neg (fun h => hj v hv h.symm)]
    exact hi.none j hj

theorem convert_spec {vs : List Var} {td : Typedefs} {K C : List Str} (hd : Distinct vs) (ht : TextsOk vs td) : ∀ fuel,
    RecOk (Inv vs td K C) (Final vs td) (FinalIn vs td fuel) (convert td fuel) := by
  intro fuel
  induction fuel with
  | zero =>
    intro st k _
    refine ⟨fun n st' h => (by rw [convert] at h; cases h), fun _ n h => h.elim⟩
  | succ fuel ih =>
    intro st k hi
    by_cases hk : ∃ v ∈ vs, v.std = k
    · obtain ⟨v, hv, rfl⟩ := hk
      by_cases hm : v.std ∈ st.2
      · obtain ⟨n', hfin, w, hw, hs, hg⟩ := hi.done _ hm
        have := hd.eq hw hv hs; subst this
        rw [convert, hg]
        simp only [if_pos hm]
        refine ⟨fun n st' h => ?_, fun h => (by cases h)⟩
        cases h
        exact ⟨hfin, inv_same hi hg⟩
      · have hg := hi.todo v hv hm
        obtain ⟨m, ty, hp, hl⟩ := ht v hv
        obtain ⟨c, e1, e2, e3⟩ := place_decode hp
        rw [convert, hg]
        simp only [if_neg hm, e1, Option.bind_some, e2, e3]
        cases hlk : lookup m td with
        | none =>
          refine ⟨fun n st' h => ?_, fun h => (by cases h)⟩
          cases h
          exact ⟨⟨1, v, m, ty, hv, rfl, hp, Or.inl ⟨hlk, rfl⟩⟩, inv_same hi hg⟩
        | some ts =>
          have hl' : LocalName v.loc := by
            rcases hl with h | h
            · rw [hlk] at h; cases h
            · exact h
          have hrc := ref_correct ih hl' st hi
          cases hpx : lookup ty ts with
          | none =>
            simp only [hpx]
            refine ⟨fun n st' h => (by cases h), fun _ n hfn => ?_⟩
            obtain ⟨v', m', ty', hv', hk', hp', hh⟩ := hfn
            have := hd.eq hv' hv hk'; subst this
            obtain ⟨rfl, rfl⟩ := place_unique hp hp'
            rcases hh with ⟨a, _⟩ | ⟨ts', p, o, a, b, _⟩
            · rw [hlk] at a; cases a
            · rw [hlk] at a; cases a
              rw [hpx] at b; cases b
          | some p =>
            simp only [hpx, Option.bind_some]
            cases hr : convRef (convert td fuel) st v.loc with
            | none =>
              refine ⟨fun n st' h => (by cases h), fun _ n hfn => ?_⟩
              obtain ⟨v', m', ty', hv', hk', hp', hh⟩ := hfn
              have := hd.eq hv' hv hk'; subst this
              obtain ⟨rfl, rfl⟩ := place_unique hp hp'
              rcases hh with ⟨a, _⟩ | ⟨ts', p', o, a, b, hrep, _⟩
              · rw [hlk] at a; cases a
              · exact hrc.2 hr o hrep
            | some r =>
              obtain ⟨o, st1⟩ := r
              refine ⟨fun n st' h => ?_, fun h => (by cases h)⟩
              simp only [Option.map_some, Option.some.injEq, Prod.mk.injEq] at h
              obtain ⟨rfl, rfl⟩ := h
              obtain ⟨hrep, hi1⟩ := hrc.1 o st1 hr
              obtain ⟨d, hdep⟩ := replaced_bound (finalIn_grows vs td) hrep
              have hfin : Final vs td v.std (prefixed p o) := by
                refine ⟨d + 1, v, m, ty, hv, rfl, hp, Or.inr ⟨ts, p, o, hlk, hpx, hdep, ?_⟩⟩
                unfold prefixed
                split
                · rfl
                · simp
              exact ⟨hfin, inv_set hi1 hv hfin hd⟩
    · have hk' : ∀ v ∈ vs, v.std ≠ k := fun v hv he => hk ⟨v, hv, he⟩
      rw [convert, hi.none k hk']
      refine ⟨fun n st' h => (by cases h), fun _ n hfn => ?_⟩
      obtain ⟨v', m', ty', hv', hk2, _⟩ := hfn
      exact hk' v' hv' hk2

/-! ## The loop over all variables -/

/-- The module of the variable is not configured. -/
def Plain (vs : List Var) (td : Typedefs) (k : Str) : Prop := ∃ v m ty, v ∈ vs ∧ v.std = k ∧ Place v m ty ∧ lookup m td = none

theorem convert_in {vs : List Var} {td : Typedefs} {K C : List Str} (hd : Distinct vs) (ht : TextsOk vs td) {fuel : Nat} {st st' : NSt}
    {k n : Str} (hi : Inv vs td K C st) (h : convert td fuel st k = some (n, st')) : k ∈ st'.2 ∨ Plain vs td k := by
  cases fuel with
  | zero => rw [convert] at h; cases h
  | succ fuel =>
    by_cases hk : ∃ v ∈ vs, v.std = k
    · obtain ⟨v, hv, rfl⟩ := hk
      by_cases hm : v.std ∈ st.2
      · obtain ⟨n', hfin, w, hw, hs, hg⟩ := hi.done _ hm
        rw [convert, hg] at h
        simp only [if_pos hm] at h
        cases h
        exact Or.inl hm
      · have hg := hi.todo v hv hm
        obtain ⟨m, ty, hp, hl⟩ := ht v hv
        obtain ⟨c, e1, e2, e3⟩ := place_decode hp
        rw [convert, hg] at h
        simp only [if_neg hm, e1, Option.bind_some, e2, e3] at h
        cases hlk : lookup m td with
        | none => exact Or.inr ⟨v, m, ty, hv, rfl, hp, hlk⟩
        | some ts =>
          rw [hlk] at h
          simp only at h
          cases hpx : lookup ty ts with
          | none => simp only [hpx] at h; cases h
          | some p =>
            simp only [hpx, Option.bind_some] at h
            cases hr : convRef (convert td fuel) st v.loc with
            | none => rw [hr] at h; cases h
            | some r =>
              rw [hr] at h
              simp only [Option.map_some, Option.some.injEq, Prod.mk.injEq] at h
              rw [← h.2]
              exact Or.inl (by simp)
    · have hk' : ∀ v ∈ vs, v.std ≠ k := fun v hv he => hk ⟨v, hv, he⟩
      rw [convert, hi.none k hk'] at h
      cases h

theorem Inv.weaken {vs : List Var} {td : Typedefs} {K C C' : List Str} {st : NSt} (hi : Inv vs td K C st) (h : ∀ k ∈ C', k ∈ st.2) :
    Inv vs td K C' st := ⟨h, hi.keys, hi.done, hi.todo, hi.none⟩

theorem inv_get {vs : List Var} {td : Typedefs} {K C : List Str} {st : NSt} (hi : Inv vs td K C st) {k : Str} (hk : k ∈ K) :
    ∃ v ∈ vs, v.std = k ∧ ∃ n, get st.1 k = some [{ v with loc := n }] := by
  have hmem : ∃ v ∈ vs, v.std = k := by
    apply Classical.byContradiction
    intro hn
    have := hi.none k fun v hv he => hn ⟨v, hv, he⟩
    rw [get_none, hi.keys] at this
    exact this hk
  obtain ⟨v, hv, rfl⟩ := hmem
  by_cases hm : v.std ∈ st.2
  · obtain ⟨n, _, w, hw, hs, hg⟩ := hi.done _ hm
    exact ⟨w, hw, hs, n, hg⟩
  · exact ⟨v, hv, rfl, v.loc, hi.todo v hv hm⟩

theorem convLoop_spec {vs : List Var} {td : Typedefs} {K : List Str} (hd : Distinct vs) (ht : TextsOk vs td) {fuel : Nat} :
    ∀ {ks : List Str} {st : NSt}, (∀ k ∈ ks, k ∈ K) → Inv vs td K [] st →
    (∀ st', convLoop td fuel st ks = some st' → Inv vs td K st.2 st' ∧ ∀ k ∈ ks, (∃ n, Final vs td k n) ∧ (k ∈ st'.2 ∨ Plain vs td k)) ∧
    (convLoop td fuel st ks = none → ∃ k ∈ ks, ∀ n, ¬ FinalIn vs td fuel k n)
  | [], st, _, hi => by
    refine ⟨fun st' h => ?_, fun h => ?_⟩
    · rw [convLoop] at h; cases h
      exact ⟨hi.weaken fun _ h => h, fun k hk => by cases hk⟩
    · rw [convLoop] at h; cases h
  | k :: ks, st, hK, hi => by
    have hi0 : Inv vs td K st.2 st := hi.weaken fun _ h => h
    obtain ⟨v, hv, hs, n0, hg⟩ := inv_get hi (hK k (by simp))
    have hc := convert_spec hd ht fuel st k hi0
    rw [convLoop, hg]
    simp only
    cases hcv : convert td fuel st k with
    | none => exact ⟨fun st' h => (by cases h), fun _ => ⟨k, by simp, hc.2 hcv⟩⟩
    | some r =>
      obtain ⟨n, st1⟩ := r
      obtain ⟨hf, hi1⟩ := hc.1 n st1 hcv
      have ih := convLoop_spec hd ht (fuel := fuel) (ks := ks) (st := (setLoc st1.1 k n, st1.2)) (fun x hx => hK x (by simp [hx]))
        (hi1.weaken fun _ h => by cases h)
      simp only [Option.bind_some]
      refine ⟨fun st' h => ?_, fun h => ?_⟩
      · obtain ⟨a, b⟩ := ih.1 st' h
        refine ⟨a.weaken fun j hj => a.sub j (hi1.sub j hj), ?_⟩
        intro j hj
        rcases List.mem_cons.1 hj with rfl | hj
        · exact ⟨⟨n, hf⟩, (convert_in hd ht hi0 hcv).imp (fun h => a.sub _ h) id⟩
        · exact b j hj
      · obtain ⟨j, hj, hn⟩ := ih.2 h
        exact ⟨j, by simp [hj], hn⟩

/-! ## Tables and files -/

theorem keys_rep {d : Dict} {l : List Var} (h : Rep d l) (k : Str) : k ∈ keys d ↔ ∃ v ∈ l, v.std = k := by
  rw [mem_keys, h.2 k]
  constructor
  · rintro ⟨m, hm⟩
    split at hm
    · cases hm
    · rename_i hne
      cases hr : reqs l k with
      | nil => exact absurd hr hne
      | cons v r =>
        have := mem_reqs.1 (show v ∈ reqs l k by rw [hr]; simp)
        exact ⟨v, this.1, this.2⟩
  · rintro ⟨v, hv, hs⟩
    have : reqs l k ≠ [] := fun h0 => by
      have := mem_reqs.2 ⟨hv, hs⟩; rw [h0] at this; cases this
    exact ⟨_, if_neg this⟩

theorem reqs_distinct {l : List Var} (hd : Distinct l) {v : Var} (hv : v ∈ l) : reqs l v.std = [v] := by
  induction l with
  | nil => cases hv
  | cons x l ih =>
    obtain ⟨h1, h2⟩ := List.pairwise_cons.1 hd
    rw [reqs_cons]
    rcases List.mem_cons.1 hv with a | a
    · subst a
      rw [if_pos rfl]
      have : reqs l v.std = [] := by
        cases hr : reqs l v.std with
        | nil => rfl
        | cons w r =>
          have := mem_reqs.1 (show w ∈ reqs l v.std by rw [hr]; simp)
          exact absurd this.2.symm (h1 w this.1)
      rw [this]
    · rw [if_neg (h1 v a), ih h2 a]

theorem inv_init {vs : List Var} {td : Typedefs} {d : Dict} (hr : Rep d vs) (hd : Distinct vs) : Inv vs td (keys d) [] (d, []) := by
  refine ⟨fun k hk => (by cases hk), rfl, fun k hk => (by cases hk), ?_, ?_⟩
  · intro v hv _
    show get d v.std = _
    rw [hr.2, reqs_distinct hd hv, if_neg (by simp)]
  · intro k hk
    rw [get_none, keys_rep hr]
    rintro ⟨v, hv, hs⟩
    exact hk v hv hs

theorem lenEq_rest {s : Str} : startsWith lenEq s = true ↔ ∃ r, s = "len=".toList ++ r := startsWith_iff

theorem msg_kind {a b : Str} {v : Var} (hab : ∃ r, a = b ++ r) (P : Prop) : (P ∧ (a = v.kind ∨ (a = a ∧ ∃ r, v.kind = b ++ r) ∨ (v.kind = a ∧ ∃ r, a = b ++ r))) ↔
    P ∧ ∃ r, v.kind = b ++ r := by
  obtain ⟨r0, h0⟩ := hab
  refine and_congr_right fun _ => ⟨?_, fun h => Or.inr (Or.inl ⟨rfl, h⟩)⟩
  rintro (h | ⟨_, h⟩ | ⟨h, _⟩)
  · exact ⟨r0, by rw [← h]; exact h0⟩
  · exact h
  · exact ⟨r0, by rw [h]; exact h0⟩

theorem mandatoryOk_iff {v : Var} : mandatoryOk v = true ↔ ErrorsOk v := by
  have hs : suiteVars.take 2 = [suiteVars[0], suiteVars[1]] := by decide
  unfold mandatoryOk
  rw [hs]
  simp only [List.all_cons, List.all_nil, Bool.and_true, Bool.and_eq_true, Bool.or_eq_true, bne_iff_ne, compatible_iff]
  have h0 : suiteVars[0].std = "ccpp_error_message".toList := by decide
  have h1 : suiteVars[1].std = "ccpp_error_code".toList := by decide
  have t0 : suiteVars[0].type = "character".toList := by decide
  have t1 : suiteVars[1].type = "integer".toList := by decide
  have d0 : suiteVars[0].dims = [] := by decide
  have d1 : suiteVars[1].dims = [] := by decide
  have k0 : suiteVars[0].kind = "len=*".toList := by decide
  have k1 : suiteVars[1].kind = [] := by decide
  have hl : ∃ r, "len=*".toList = "len=".toList ++ r := ⟨['*'], rfl⟩
  have hc : "integer".toList ≠ "character".toList := by decide
  unfold ErrorsOk Compat KindOk
  rw [h0, t0, d0, k0, h1, t1, d1, k1]
  generalize "ccpp_error_message".toList = A at *
  generalize "ccpp_error_code".toList = B at *
  generalize "character".toList = C at *
  generalize "integer".toList = D at *
  generalize "len=*".toList = E at *
  generalize "len=".toList = G at *
  refine and_congr ?_ ?_
  · constructor
    · rintro (h | ⟨h, ht, hd, hk⟩) he
      · exact absurd he.symm h
      · refine ⟨ht.symm, List.length_eq_zero_iff.1 hd.symm, ?_⟩
        exact ((msg_kind hl True).1 ⟨trivial, hk.imp id fun h => h.2⟩).2
    · intro h
      by_cases he : v.std = A
      · obtain ⟨a, b, c⟩ := h he
        exact Or.inr ⟨he.symm, a.symm, by rw [b], Or.inr ⟨rfl, Or.inl ⟨rfl, c⟩⟩⟩
      · exact Or.inl fun h => he h.symm
  · constructor
    · rintro (h | ⟨h, ht, hd, hk⟩) he
      · exact absurd he.symm h
      · refine ⟨ht.symm, List.length_eq_zero_iff.1 hd.symm, ?_⟩
        rcases hk with hk | ⟨hk, _⟩
        · exact hk.symm
        · exact absurd hk hc
    · intro h
      by_cases he : v.std = B
      · obtain ⟨a, b, c⟩ := h he
        exact Or.inr ⟨he.symm, a.symm, by rw [b], Or.inl c.symm⟩
      · exact Or.inl fun h => he h.symm

theorem hostTables_spec : ∀ {ts : List (List Var)} {d : Dict} {l : List Var}, Rep d l →
    (∀ d', hostTables d ts = some d' → Rep d' (l ++ ts.flatten) ∧ ∀ v ∈ ts.flatten, ErrorsOk v) ∧
    (Distinct (l ++ ts.flatten) → (∀ v ∈ ts.flatten, ErrorsOk v) → ∃ d', hostTables d ts = some d')
  | [], d, l, h => by
    refine ⟨fun d' hd => ?_, fun _ _ => ⟨d, rfl⟩⟩
    rw [hostTables] at hd; cases hd
    exact ⟨by simpa using h, fun v hv => by cases hv⟩
  | t :: ts, d, l, h => by
    have ha := addVars_spec (vs := t) h
    constructor
    · intro d' hd
      rw [hostTables] at hd
      split at hd
      · rename_i hc
        rw [Bool.and_eq_true, List.all_eq_true] at hc
        cases h1 : addVars d t with
        | none => rw [h1] at hd; cases hd
        | some d1 =>
          rw [h1] at hd
          obtain ⟨a, b⟩ := (hostTables_spec (ts := ts) (ha.2 d1 h1)).1 d' hd
          refine ⟨by simpa using a, ?_⟩
          intro v hv
          rcases List.mem_append.1 (by simpa using hv : v ∈ t ++ ts.flatten) with hv | hv
          · exact mandatoryOk_iff.1 (hc.2 v hv)
          · exact b v hv
      · cases hd
    · intro hd he
      have hd' : Distinct (l ++ t ++ ts.flatten) := by simpa using hd
      have hlt : Distinct (l ++ t) := (List.pairwise_append.1 hd').1
      obtain ⟨hl, ht, hx⟩ := List.pairwise_append.1 hlt
      obtain ⟨d1, h1⟩ := ha.1.2 ⟨ht.imp fun hne h => absurd h hne, fun a ha b hb h => absurd h (hx a ha b hb)⟩
      obtain ⟨d2, h2⟩ := (hostTables_spec (ts := ts) (ha.2 d1 h1)).2 hd' fun v hv => he v (by simp at hv ⊢; exact Or.inr hv)
      refine ⟨d2, ?_⟩
      rw [hostTables, if_pos, h1]
      · exact h2
      · rw [Bool.and_eq_true, List.all_eq_true]
        exact ⟨noDup_iff.2 ht, fun v hv => mandatoryOk_iff.2 (he v (by simp [hv]))⟩

theorem merge_keys {x y z : Dict} (h : merge x y = some z) : keys z = sortedSet (keys x ++ keys y) := by
  have hsp := mapAll_spec (f := fun k => (mergeKey x y k).map fun l => (k, l)) (l := sortedSet (keys x ++ keys y))
  exact (get_of_pairs (hsp.2 z h)).1

/-- The names are in order. -/
def InOrder (d : Dict) : Prop := ∃ P, DT.SortedSetOf (keys d) P

theorem merge_inOrder {x y z : Dict} (h : merge x y = some z) : InOrder z := by
  refine ⟨fun k => k ∈ keys x ∨ k ∈ keys y, ?_⟩
  rw [merge_keys h]
  exact DT.sortedSet_spec fun n => List.mem_append

theorem hostFiles_spec : ∀ {fs : List (List (List Var))} {d : Dict} {l : List Var}, Rep d l → InOrder d →
    (∀ d', hostFiles d fs = some d' → Rep d' (l ++ fs.flatten.flatten) ∧ InOrder d' ∧ ∀ v ∈ fs.flatten.flatten, ErrorsOk v) ∧
    (Distinct (l ++ fs.flatten.flatten) → (∀ v ∈ fs.flatten.flatten, ErrorsOk v) → ∃ d', hostFiles d fs = some d')
  | [], d, l, h, ho => by
    refine ⟨fun d' hd => ?_, fun _ _ => ⟨d, rfl⟩⟩
    rw [hostFiles] at hd; cases hd
    exact ⟨by simpa using h, ho, fun v hv => by cases hv⟩
  | f :: fs, d, l, h, ho => by
    have ht := hostTables_spec (ts := f) rep_nil
    constructor
    · intro d' hd
      rw [hostFiles] at hd
      cases h1 : hostTables [] f with
      | none => rw [h1] at hd; cases hd
      | some m =>
        rw [h1] at hd
        simp only [Option.bind_some] at hd
        obtain ⟨a, b⟩ := ht.1 m h1
        cases h2 : merge d m with
        | none => rw [h2] at hd; cases hd
        | some d1 =>
          rw [h2] at hd
          obtain ⟨a2, o2, b2⟩ := (hostFiles_spec (fs := fs) ((merge_spec h a).2 d1 h2) (merge_inOrder h2)).1 d' hd
          refine ⟨by simpa using a2, o2, ?_⟩
          intro v hv
          rcases List.mem_append.1 (by simpa using hv : v ∈ f.flatten ++ fs.flatten.flatten) with hv | hv
          · exact b v hv
          · exact b2 v hv
    · intro hd he
      have hd' : Distinct (l ++ f.flatten ++ fs.flatten.flatten) := by simpa using hd
      have hlf : Distinct (l ++ f.flatten) := (List.pairwise_append.1 hd').1
      obtain ⟨hl, hf, hx⟩ := List.pairwise_append.1 hlf
      have he' : ∀ v, v ∈ f.flatten ∨ v ∈ fs.flatten.flatten → ErrorsOk v := fun v hv => he v (by
        have : v ∈ f.flatten ++ fs.flatten.flatten := List.mem_append.2 hv
        simpa using this)
      obtain ⟨m, h1⟩ := ht.2 (by rw [List.nil_append]; exact hf) fun v hv => he' v (Or.inl hv)
      have hr := (ht.1 m h1).1
      obtain ⟨z, h2⟩ := (merge_spec h hr).1.2 (by
        intro k a l' b m' ha hb
        have ha' := mem_reqs.1 (show a ∈ reqs l k by rw [ha]; simp)
        have hb' := mem_reqs.1 (show b ∈ reqs ([] ++ f.flatten) k by rw [hb]; simp)
        exact absurd (ha'.2.trans hb'.2.symm) (hx a ha'.1 b hb'.1))
      obtain ⟨d2, h3⟩ := (hostFiles_spec (fs := fs) ((merge_spec h hr).2 z h2) (merge_inOrder h2)).2 (by simpa using hd')
        fun v hv => he' v (Or.inr hv)
      exact ⟨d2, by rw [hostFiles, h1]; simp only [Option.bind_some]; rw [h2]; exact h3⟩

/-! ## Two definitions of a name -/

theorem collect_pres {α : Type} {P : NSt → Prop} {f : NSt → α → Option (Str × NSt)} (hf : ∀ st a r, f st a = some r → P st → P r.2) :
    ∀ {l : List α} {st : NSt} {r : List Str × NSt}, collectTexts f st l = some r → P st → P r.2
  | [], st, r, h, hp => by rw [collectTexts] at h; cases h; exact hp
  | a :: l, st, r, h, hp => by
    rw [collectTexts] at h
    cases h1 : f st a with
    | none => rw [h1] at h; cases h
    | some q =>
      rw [h1] at h
      simp only [Option.bind_some] at h
      cases h2 : collectTexts f q.2 l with
      | none => rw [h2] at h; cases h
      | some w =>
        rw [h2] at h; cases h
        exact collect_pres (r := w) hf h2 (hf st a q h1 hp)

theorem convRef_pres {P : NSt → Prop} (hs : ∀ st k n, P st → P (setLoc st.1 k n, st.2)) {rec : NSt → Str → Option (Str × NSt)}
    (hr : ∀ st k r, rec st k = some r → P st → P r.2) {st : NSt} {loc : Str} {r : Str × NSt} (h : convRef rec st loc = some r) (hp : P st) :
    P r.2 := by
  unfold convRef at h
  split at h
  · cases h1 : splitRef loc with
    | none => rw [h1] at h; cases h
    | some s =>
      rw [h1] at h
      simp only [Option.bind_some] at h
      obtain ⟨q, hq, rfl⟩ := Option.map_eq_some_iff.1 h
      refine collect_pres (P := P) ?_ hq hp
      intro st t r h hp
      unfold convRange at h
      simp only at h
      split at h
      · cases h; exact hp
      · obtain ⟨q, hq, rfl⟩ := Option.map_eq_some_iff.1 h
        refine collect_pres (P := P) ?_ hq hp
        intro st t r h hp
        unfold convDim at h
        simp only at h
        split at h
        · cases h; exact hp
        · obtain ⟨q, hq, rfl⟩ := Option.map_eq_some_iff.1 h
          exact hs _ _ _ (hr _ _ _ hq hp)
  · cases h; exact hp

theorem convert_pres {td : Typedefs} {P : NSt → Prop} (hs : ∀ st k n, P st → P (setLoc st.1 k n, st.2))
    (ha : ∀ st k, P st → P (st.1, st.2 ++ [k])) : ∀ {fuel : Nat} {st : NSt} {k : Str} {r : Str × NSt}, convert td fuel st k = some r → P st → P r.2
  | 0, st, k, r, h, _ => by rw [convert] at h; cases h
  | fuel + 1, st, k, r, h, hp => by
    rw [convert] at h
    split at h
    · split at h
      · cases h; exact hp
      · obtain ⟨c, _, h⟩ := Option.bind_eq_some_iff.1 h
        obtain ⟨m, _, h⟩ := Option.bind_eq_some_iff.1 h
        split at h
        · cases h; exact hp
        · obtain ⟨p, _, h⟩ := Option.bind_eq_some_iff.1 h
          obtain ⟨q, hq, rfl⟩ := Option.map_eq_some_iff.1 h
          exact ha _ _ (convRef_pres hs (fun st k r h hp => convert_pres hs ha h hp) hq hp)
    · cases h

theorem convLoop_single {td : Typedefs} {fuel : Nat} {k0 : Str} : ∀ {ks : List Str} {st st' : NSt}, convLoop td fuel st ks = some st' →
    k0 ∈ ks → (get st.1 k0).map List.length = some 1
  | [], _, _, _, h => by cases h
  | k :: ks, st, st', h, hk => by
    rw [convLoop] at h
    split at h
    · rename_i w hg
      rcases List.mem_cons.1 hk with rfl | hk
      · rw [hg]; rfl
      · obtain ⟨r, hr, h⟩ := Option.bind_eq_some_iff.1 h
        have := convLoop_single h hk
        let P : NSt → Prop := fun s => (get s.1 k0).map List.length = (get st.1 k0).map List.length
        have hset : ∀ s j n, P s → P (setLoc s.1 j n, s.2) := by
          intro s j n hp
          show (get (setLoc s.1 j n) k0).map List.length = _
          rw [get_setLoc]
          split
          · rw [← hp]
            cases get s.1 k0 with
            | none => rfl
            | some l => cases l <;> rfl
          · exact hp
        have hp : P (setLoc r.2.1 k r.1, r.2.2) :=
          hset r.2 k r.1 (convert_pres (P := P) hset (fun _ _ h => h) hr rfl)
        exact hp.symm.trans this
    · cases h

theorem distinct_of_single {l : List Var} (h : ∀ v ∈ l, (reqs l v.std).length = 1) : Distinct l := by
  have key : ∀ l : List Var, (∀ v ∈ l, (reqs l v.std).length ≤ 1) → Distinct l := by
    intro l
    induction l with
    | nil => intro _; exact List.Pairwise.nil
    | cons x l ih =>
      intro h
      refine List.pairwise_cons.2 ⟨?_, ih ?_⟩
      · intro y hy he
        have h1 := h x (by simp)
        rw [reqs_cons, if_pos rfl] at h1
        have : y ∈ reqs l x.std := mem_reqs.2 ⟨hy, he.symm⟩
        have := List.length_pos_of_mem this
        simp only [List.length_cons] at h1
        omega
      · intro v hv
        have h1 := h v (by simp [hv])
        rw [reqs_cons] at h1
        split at h1
        · simp only [List.length_cons] at h1; omega
        · exact h1
  exact key l fun v hv => Nat.le_of_eq (h v hv)

/-! ## The theorems -/

theorem sorted_nil : InOrder [] := ⟨fun _ => False, by
  refine ⟨List.Pairwise.nil, List.nodup_nil, fun n => ?_⟩
  simp [keys]⟩

theorem gather_some {td : Typedefs} (hne : td ≠ []) {fuel : Nat} {files : List (List (List Var))} {d : Dict}
    (h : gather td fuel files = some d) : ∃ d0 st, Rep d0 files.flatten.flatten ∧ InOrder d0 ∧ LegalHost files ∧
      convLoop td fuel (d0, []) (keys d0) = some st ∧ d = st.1 := by
  unfold gather at h
  obtain ⟨d0, h0, h⟩ := Option.bind_eq_some_iff.1 h
  rw [if_neg hne] at h
  obtain ⟨st, hc, rfl⟩ := Option.map_eq_some_iff.1 h
  obtain ⟨hr, ho, he⟩ := (hostFiles_spec rep_nil sorted_nil).1 d0 h0
  have hr : Rep d0 files.flatten.flatten := by simpa using hr
  refine ⟨d0, st, hr, ho, ⟨?_, he⟩, hc, rfl⟩
  refine distinct_of_single fun v hv => ?_
  have := convLoop_single hc ((keys_rep hr v.std).2 ⟨v, hv, rfl⟩)
  have hg : get d0 v.std = some (reqs files.flatten.flatten v.std) := by
    rw [hr.2, if_neg]
    intro h0
    have := mem_reqs.2 ⟨hv, (rfl : v.std = v.std)⟩; rw [h0] at this; cases this
  rw [hg] at this
  simpa using this

/-- **C71** Whether the variables of the host are accepted. -/
theorem C71_accepted_iff {td : Typedefs} (hne : td ≠ []) {files : List (List (List Var))} (ht : TextsOk files.flatten.flatten td) :
    (∃ fuel d, gather td fuel files = some d) ↔
      LegalHost files ∧ ∀ v ∈ files.flatten.flatten, ∃ n, Final files.flatten.flatten td v.std n := by
  constructor
  · rintro ⟨fuel, d, h⟩
    obtain ⟨d0, st, hr, ho, hl, hc, rfl⟩ := gather_some hne h
    refine ⟨hl, ?_⟩
    have hd : Distinct files.flatten.flatten := hl.1
    intro v hv
    exact (((convLoop_spec hd ht (fun k h => h) (inv_init hr hd)).1 st hc).2 v.std ((keys_rep hr v.std).2 ⟨v, hv, rfl⟩)).1
  · rintro ⟨hl, hf⟩
    have hd : Distinct files.flatten.flatten := hl.1
    obtain ⟨d0, h0⟩ := (hostFiles_spec (fs := files) rep_nil sorted_nil).2 (by simpa using hd) hl.2
    have hr : Rep d0 files.flatten.flatten := by simpa using ((hostFiles_spec rep_nil sorted_nil).1 d0 h0).1
    have hb : ∃ fuel, ∀ v ∈ files.flatten.flatten, ∃ n, FinalIn files.flatten.flatten td fuel v.std n := by
      generalize hvs : files.flatten.flatten = vs at hf ⊢
      have : ∀ l : List Var, (∀ v ∈ l, ∃ n, Final vs td v.std n) → ∃ fuel, ∀ v ∈ l, ∃ n, FinalIn vs td fuel v.std n := by
        intro l
        induction l with
        | nil => intro _; exact ⟨0, fun v hv => by cases hv⟩
        | cons x l ih =>
          intro h
          obtain ⟨n, d, hx⟩ := h x (by simp)
          obtain ⟨e, he⟩ := ih fun v hv => h v (by simp [hv])
          refine ⟨max d e, fun v hv => ?_⟩
          rcases List.mem_cons.1 hv with rfl | hv
          · exact ⟨n, finalIn_grows vs td _ _ _ _ (Nat.le_max_left d e) hx⟩
          · obtain ⟨n', hn'⟩ := he v hv
            exact ⟨n', finalIn_grows vs td _ _ _ _ (Nat.le_max_right d e) hn'⟩
      exact this vs hf
    obtain ⟨fuel, hb⟩ := hb
    have hc := (convLoop_spec hd ht (fuel := fuel) (fun k h => h) (inv_init (td := td) hr hd)).2
    refine ⟨fuel, ?_⟩
    unfold gather
    rw [h0, Option.bind_some, if_neg hne]
    cases hcl : convLoop td fuel (d0, []) (keys d0) with
    | none =>
      obtain ⟨k, hk, hn⟩ := hc hcl
      obtain ⟨v, hv, rfl⟩ := (keys_rep hr k).1 hk
      obtain ⟨n, hn'⟩ := hb v hv
      exact absurd hn' (hn n)
    | some st => exact ⟨st.1, rfl⟩

/-- **C71** The result: every variable of the host once, in the order of the standard names, with its final name. -/
theorem C71_result {td : Typedefs} (hne : td ≠ []) {fuel : Nat} {files : List (List (List Var))} (ht : TextsOk files.flatten.flatten td)
    {d : Dict} (h : gather td fuel files = some d) :
    DT.SortedSetOf (keys d) (fun k => ∃ v ∈ files.flatten.flatten, v.std = k) ∧
    ∀ v ∈ files.flatten.flatten, ∃ n, Final files.flatten.flatten td v.std n ∧ get d v.std = some [{ v with loc := n }] := by
  obtain ⟨d0, st, hr, ⟨P, ho⟩, hl, hc, rfl⟩ := gather_some hne h
  have hd : Distinct files.flatten.flatten := hl.1
  obtain ⟨hi, hs⟩ := (convLoop_spec hd ht (fun k h => h) (inv_init hr hd)).1 st hc
  refine ⟨?_, ?_⟩
  · rw [hi.keys]
    exact ⟨ho.1, ho.2.1, keys_rep hr⟩
  · intro v hv
    obtain ⟨⟨n, hf⟩, hin⟩ := hs v.std ((keys_rep hr v.std).2 ⟨v, hv, rfl⟩)
    by_cases hm : v.std ∈ st.2
    · obtain ⟨n', hf', w, hw, hws, hg⟩ := hi.done _ hm
      have := hd.eq hw hv hws; subst this
      exact ⟨n', hf', hg⟩
    · rcases hin with hin | ⟨w, m, ty, hw, hws, hp, hlk⟩
      · exact absurd hin hm
      · have := hd.eq hw hv hws; subst this
        exact ⟨w.loc, ⟨1, w, m, ty, hw, rfl, hp, Or.inl ⟨hlk, rfl⟩⟩, hi.todo w hw hm⟩

theorem final_perm {vs ws : List Var} (hp : ∀ v, v ∈ vs ↔ v ∈ ws) {td : Typedefs} : ∀ {d : Nat} {k n : Str}, FinalIn vs td d k n →
    FinalIn ws td d k n := by
  intro d
  induction d with
  | zero => intro k n h; exact h
  | succ d ih =>
    rintro k n ⟨v, m, ty, hv, hk, hpl, h⟩
    refine ⟨v, m, ty, (hp v).1 hv, hk, hpl, h.imp id ?_⟩
    rintro ⟨ts, p, o, h1, h2, h3, h4⟩
    exact ⟨ts, p, o, h1, h2, replaced_mono (fun s o => ih) h3, h4⟩

theorem dict_ext : ∀ {d e : Dict}, keys d = keys e → (keys d).Nodup → (∀ k ∈ keys d, get d k = get e k) → d = e
  | [], [], _, _, _ => rfl
  | [], _ :: _, h, _, _ => by cases h
  | _ :: _, [], h, _, _ => by cases h
  | x :: d, y :: e, h, hn, hg => by
    simp only [keys, List.map_cons, List.cons.injEq] at h
    have h1 := hg x.1 (by simp [keys])
    rw [get, if_pos rfl, get, if_pos h.1.symm] at h1
    have hxy : x = y := Prod.ext h.1 (Option.some.inj h1)
    have hn' := List.nodup_cons.1 (show (x.1 :: keys d).Nodup from hn)
    rw [hxy, dict_ext h.2 hn'.2]
    intro k hk
    have := hg k (by simp only [keys, List.map_cons, List.mem_cons]; exact Or.inr hk)
    have hne : x.1 ≠ k := fun h => hn'.1 (h ▸ hk)
    rw [get, if_neg hne, get, if_neg (fun hh => hne (h.1.trans hh))] at this
    exact this

/-- **C71** The order of the files, of the tables, and of the variables does not matter. -/
theorem C71_order {td : Typedefs} (hne : td ≠ []) {fuel : Nat} {files files' : List (List (List Var))}
    (ht : TextsOk files.flatten.flatten td) (hp : files.flatten.flatten.Perm files'.flatten.flatten) {d : Dict}
    (h : gather td fuel files = some d) : ∃ fuel', gather td fuel' files' = some d := by
  have hm : ∀ v, v ∈ files.flatten.flatten ↔ v ∈ files'.flatten.flatten := fun v => hp.mem_iff
  have ht' : TextsOk files'.flatten.flatten td := fun v hv => ht v ((hm v).2 hv)
  obtain ⟨hl, hf⟩ := (C71_accepted_iff hne ht).1 ⟨fuel, d, h⟩
  have hd' : files'.flatten.flatten.Pairwise fun a b => a.std ≠ b.std := hl.1.perm hp fun h => h.symm
  obtain ⟨fuel', d', h'⟩ := (C71_accepted_iff hne ht').2 ⟨⟨hd', fun v hv => hl.2 v ((hm v).2 hv)⟩, fun v hv => by
    obtain ⟨n, dd, hn⟩ := hf v ((hm v).2 hv)
    exact ⟨n, dd, final_perm hm hn⟩⟩
  have r := C71_result hne ht h
  have r' := C71_result hne ht' h'
  have hk : keys d' = keys d := by
    refine DT.SortedSetOf.unique r'.1 ⟨r.1.1, r.1.2.1, fun k => ?_⟩
    rw [r.1.2.2 k]
    exact ⟨fun ⟨v, hv, hs⟩ => ⟨v, (hm v).1 hv, hs⟩, fun ⟨v, hv, hs⟩ => ⟨v, (hm v).2 hv, hs⟩⟩
  have : d' = d := by
    refine dict_ext hk r'.1.2.1 ?_
    intro k hkk
    obtain ⟨v, hv, rfl⟩ := (r'.1.2.2 k).1 hkk
    obtain ⟨n', hf', hg'⟩ := r'.2 v hv
    obtain ⟨n, ⟨dd, hf⟩, hg⟩ := r.2 v ((hm v).2 hv)
    rw [hg', hg, C71_unique hd' hf' ⟨dd, final_perm hm hf⟩]
  exact ⟨fuel', by rw [h', this]⟩

end Ccpp.PB
