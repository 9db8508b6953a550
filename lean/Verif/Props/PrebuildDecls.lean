import Verif.Spec.PrebuildDecls
/-!
# C104: the declarations in the caps of ccpp_prebuild
-/
namespace Ccpp.Decls
open PB (Str)

/-! ## Lookup -/

theorem find_iff {md : List Var} {n : Str} {v : Var} : find md n = some v ↔ FirstNamed md n v := by
  unfold find FirstNamed
  rw [List.find?_eq_some_iff_append]
  constructor
  · rintro ⟨h, l, r, e, hl⟩
    exact ⟨l, r, e, by simpa using h, fun w hw => by simpa using hl w hw⟩
  · rintro ⟨l, r, e, h, hl⟩
    exact ⟨by simpa using h, l, r, e, fun w hw => by simpa using hl w hw⟩

theorem bound_iff {md : List Var} {x y : Str} : bound md x = some y ↔ Bound md x y := by
  unfold bound
  constructor
  · intro h
    split at h
    · rename_i hi
      simp only [Option.some.injEq] at h; subst h; exact .number hi
    · rename_i hi
      simp only [Option.map_eq_some_iff] at h
      obtain ⟨v, hv, rfl⟩ := h
      exact .name (by simpa using hi) (find_iff.1 hv)
  · intro h
    cases h with
    | number h => simp [h]
    | name h hv => simp [h, find_iff.2 hv]

/-! ## Dimensions -/

theorem splitOn_notMem {c : Char} : ∀ {p : Str}, c ∉ p → PB.splitOn c p = [p]
  | [], _ => rfl
  | d :: p, h => by
    simp only [List.mem_cons, not_or] at h
    simp [PB.splitOn, splitOn_notMem h.2, Ne.symm h.1]

theorem splitOn_append {c : Char} : ∀ {p s : Str}, c ∉ p → PB.splitOn c (p ++ c :: s) = p :: PB.splitOn c s
  | [], _, _ => by simp [PB.splitOn]
  | d :: p, s, h => by
    simp only [List.mem_cons, not_or] at h
    simp [PB.splitOn, splitOn_append h.2, Ne.symm h.1]

theorem split_first {c : Char} : ∀ {d : Str}, c ∈ d → ∃ p s, d = p ++ c :: s ∧ c ∉ p
  | e :: d, h => by
    by_cases he : c = e
    · exact ⟨[], d, by simp [he], by simp⟩
    · obtain ⟨p, s, rfl, hp⟩ := split_first (d := d) (by simpa [he] using h)
      exact ⟨e :: p, s, rfl, by simp [he, hp]⟩

/-- Every text after the first colon is a first part and a rest. -/
theorem split_head (c : Char) (s : Str) : ∃ q r, s = q ++ r ∧ c ∉ q ∧ (r = [] ∨ r.head? = some c) ∧
    ∃ l, PB.splitOn c s = q :: l := by
  by_cases h : c ∈ s
  · obtain ⟨q, r, rfl, hq⟩ := split_first h
    exact ⟨q, c :: r, rfl, hq, .inr rfl, _, splitOn_append hq⟩
  · exact ⟨s, [], by simp, h, .inl rfl, [], splitOn_notMem h⟩

theorem splitOn_head {c : Char} {q r : Str} (hq : c ∉ q) (hr : r = [] ∨ r.head? = some c) : ∃ l, PB.splitOn c (q ++ r) = q :: l := by
  rcases hr with rfl | hr
  · exact ⟨[], by simpa using splitOn_notMem hq⟩
  · cases r with
    | nil => simp at hr
    | cons e r =>
      simp only [List.head?_cons, Option.some.injEq] at hr
      subst hr
      exact ⟨_, splitOn_append hq⟩

theorem lowerBound_iff {md : List Var} {d lo : Str} : lowerBound md d = some lo ↔ Lower md d lo := by
  constructor
  · intro h
    unfold lowerBound at h
    split at h
    · rename_i hc
      obtain ⟨p, s, rfl, hp⟩ := split_first hc
      obtain ⟨q, r, rfl, hq, hr, l, hl⟩ := split_head ':' s
      rw [splitOn_append hp, hl] at h
      simp only [List.map_cons, Option.bind_eq_some_iff, Option.map_eq_some_iff] at h
      obtain ⟨x, hx, y, hy, rfl⟩ := h
      exact .two hp hq hr (bound_iff.1 hx) (bound_iff.1 hy)
    · rename_i hc
      simp only [Option.map_eq_some_iff] at h
      obtain ⟨y, hy, rfl⟩ := h
      exact .one hc (bound_iff.1 hy)
  · intro h
    cases h with
    | one hc hb => simp [lowerBound, hc, bound_iff.2 hb]
    | two hp hq hr h1 h2 =>
      obtain ⟨l, hl⟩ := splitOn_head hq hr
      unfold lowerBound
      rw [if_pos (by simp), splitOn_append hp, hl]
      simp [bound_iff.2 h1, bound_iff.2 h2]

theorem mapM_iff {f : α → Option β} {R : α → β → Prop} (h : ∀ a b, f a = some b ↔ R a b) :
    ∀ {l : List α} {m : List β}, l.mapM f = some m ↔ List.Forall₂ R l m
  | [], m => by
    constructor
    · intro e; simp at e; subst e; exact .nil
    · intro e; cases e; rfl
  | a :: l, m => by
    rw [List.mapM_cons]
    simp only [Option.bind_eq_bind, Option.bind_eq_some_iff, Option.pure_def, Option.some.injEq]
    constructor
    · rintro ⟨b, hb, k, hk, rfl⟩
      exact .cons ((h _ _).1 hb) ((mapM_iff h).1 hk)
    · intro e
      cases e with
      | cons h1 h2 => exact ⟨_, (h _ _).2 h1, _, (mapM_iff h).2 h2, rfl⟩

theorem shapes_join : ∀ {l : List Str}, l ≠ [] → Shapes l (PB.joinWith ',' (l.map (· ++ [':'])))
  | [lo], _ => .one
  | lo :: b :: l, _ => by
    have := Shapes.more (lo := lo) (shapes_join (l := b :: l) (by simp))
    simpa [PB.joinWith] using this

theorem colons_join {α : Type} : ∀ {l : List α}, l ≠ [] → Colons l.length (PB.joinWith ',' (l.map fun _ => [':']))
  | [_], _ => .one
  | _ :: b :: l, _ => by
    have := Colons.more (colons_join (l := b :: l) (by simp))
    simpa [PB.joinWith] using this

theorem shapes_unique {l t u} (h : Shapes l t) (k : Shapes l u) : t = u := by
  induction h generalizing u with
  | one => cases k with
    | one => rfl
    | more h => cases h
  | more h ih => cases k with
    | one => cases h
    | more k => rw [ih k]

theorem dimString_some {md : List Var} {v : Var} {ds : Str} :
    dimString md v = some ds ↔ ∃ los, List.Forall₂ (Lower md) v.dims los ∧ Shape los ds := by
  unfold dimString
  constructor
  · intro h
    split at h
    · rename_i he
      have he : v.dims = [] := by simpa using he
      simp only [Option.some.injEq] at h; subst h
      exact ⟨[], by rw [he]; exact .nil, .scalar⟩
    · rename_i he
      simp only [Option.map_eq_some_iff] at h
      obtain ⟨l, hl, rfl⟩ := h
      have hf := (mapM_iff fun a b => lowerBound_iff (md := md) (d := a) (lo := b)).1 hl
      have hne : l ≠ [] := by
        rintro rfl
        have : v.dims = [] := by
          revert hf
          generalize v.dims = d
          intro hf
          cases hf
          rfl
        simp_all
      exact ⟨l, hf, by simpa using Shape.array (shapes_join hne)⟩
  · rintro ⟨l, hf, hs⟩
    have hl := (mapM_iff fun a b => lowerBound_iff (md := md) (d := a) (lo := b)).2 hf
    cases hs with
    | scalar =>
      have : v.dims = [] := by
        revert hf
        generalize v.dims = d
        intro hf
        cases hf
        rfl
      simp [this]
    | array h =>
      have hne : l ≠ [] := by rintro rfl; cases h
      have : v.dims.isEmpty = false := by
        cases hd : v.dims with
        | nil => rw [hd] at hf; cases hf; exact absurd rfl hne
        | cons => rfl
      rw [this, hl]
      simp [shapes_unique h (shapes_join hne)]

/-! ## Types and declarations -/

theorem mem_standard {ty : Str} : ty ∈ standardTypes ↔ Intrinsic ty := by
  simp [standardTypes, Intrinsic]

theorem base_iff {v : Var} {b : Str} : base v = some b ↔ TypeSpec v b := by
  unfold base
  constructor
  · intro h
    split at h
    · rename_i hs
      split at h
      · rename_i hk
        simp only [Option.some.injEq] at h; subst h
        simpa using TypeSpec.kind (mem_standard.1 hs) hk
      · rename_i hk
        simp only [Option.some.injEq] at h; subst h
        exact .plain (mem_standard.1 hs) (by simpa using hk)
    · rename_i hs
      split at h
      · simp at h
      · rename_i hk
        simp only [Option.some.injEq] at h; subst h
        exact .derived (fun e => hs (mem_standard.2 e)) (by simpa using hk)
  · intro h
    cases h with
    | plain h hk => simp [mem_standard.2 h, hk]
    | kind h hk => simp [mem_standard.2 h, hk]
    | derived h hk =>
      have : v.ty ∉ standardTypes := fun e => h (mem_standard.1 e)
      rw [if_neg this, if_neg (by simpa using hk)]; simp

theorem defIntent_iff {md : List Var} {v : Var} {d : Str} : defIntent md v = some d ↔ Declares md v d := by
  unfold defIntent Declares
  simp only [Option.bind_eq_some_iff, dimString_some]
  constructor
  · rintro ⟨ds, ⟨los, hf, hs⟩, h⟩
    split at h
    · simp at h
    · rename_i ho
      simp only [Option.map_eq_some_iff] at h
      obtain ⟨b, hb, rfl⟩ := h
      refine ⟨b, los, ds, base_iff.1 hb, hf, hs, ho, ?_⟩
      by_cases ha : v.active = "T".toList
      · left; refine ⟨ha, ?_⟩; rw [if_pos ha]; simp
      · right; refine ⟨ha, ?_⟩; rw [if_neg ha]; simp
  · rintro ⟨ty, los, sh, ht, hf, hs, ho, h⟩
    refine ⟨sh, ⟨los, hf, hs⟩, ?_⟩
    rw [if_neg ho, base_iff.2 ht]
    rcases h with ⟨ha, rfl⟩ | ⟨ha, rfl⟩
    · rw [if_pos ha]; simp
    · rw [if_neg ha]; simp

theorem rank_cases (v : Var) : (v.dims = [] ∧ rank v = []) ∨ ∃ t, Colons v.dims.length t ∧ rank v = "(".toList ++ t ++ ")".toList := by
  unfold rank
  cases hd : v.dims with
  | nil => left; simp
  | cons a l => right; exact ⟨_, colons_join (l := a :: l) (by simp), by simp⟩

theorem defLocal_some {p : Bool} {v : Var} {d : Str} (h : defLocal p v = some d) : if p then DeclaresPointer v d else DeclaresLocal v d := by
  unfold defLocal at h
  split at h
  · simp at h
  · simp only [Option.map_eq_some_iff] at h
    obtain ⟨b, hb, rfl⟩ := h
    have hb := base_iff.1 hb
    rcases rank_cases v with ⟨h0, hr⟩ | ⟨t, ht, hr⟩
    · rw [hr]
      cases p
      · exact ⟨b, [], hb, .scalar h0, by simp⟩
      · exact ⟨b, [], hb, .scalar h0, by simp⟩
    · rw [hr]
      cases p
      · exact ⟨b, _, hb, .array ht, by simp⟩
      · exact ⟨b, _, hb, .array ht, by simp⟩

/-! ## Modules -/

theorem removeAll_notInfix {k : Str} : ∀ {s : Str}, ¬ k <:+: s → removeAll k 0 s = s
  | [], _ => rfl
  | c :: s, h => by
    have h1 : k.isPrefixOf (c :: s) = false := by
      rw [Bool.eq_false_iff]
      intro e
      exact h (List.isPrefixOf_iff_prefix.1 e).isInfix
    have h2 : ¬ k <:+: s := fun e => h (e.trans (List.infix_cons_iff.2 (.inr List.infix_rfl)))
    simp [removeAll, h1, removeAll_notInfix h2]

theorem removeAll_drop {k : Str} : ∀ {p s : Str}, removeAll k p.length (p ++ s) = removeAll k 0 s
  | [], _ => rfl
  | c :: p, s => by simp [removeAll, removeAll_drop (p := p)]

theorem removeAll_prefix {m : Str} (h : ¬ modulePrefix <:+: m) : removeAll modulePrefix 0 (modulePrefix ++ m) = m := by
  have e : modulePrefix ++ m = 'M' :: ("ODULE_".toList ++ m) := rfl
  rw [e]
  have hp : modulePrefix.isPrefixOf ('M' :: ("ODULE_".toList ++ m)) = true :=
    List.isPrefixOf_iff_prefix.2 ⟨m, rfl⟩
  rw [removeAll, if_pos hp]
  have := removeAll_drop (k := modulePrefix) (p := "ODULE_".toList) (s := m)
  rw [removeAll_notInfix h] at this
  exact this

theorem moduleUse_inModule {v : Var} {m : Str} (h : InModule v m) :
    moduleUse v = some ("use ".toList ++ m ++ ", only: ".toList ++ v.loc) := by
  obtain ⟨rest, hc, hm, hr, hi⟩ := h
  have hq : ' ' ∉ "MODULE_".toList ++ m := by
    rw [List.mem_append]
    rintro (e | e)
    · revert e; decide
    · exact hm e
  obtain ⟨l, hl⟩ := splitOn_head hq hr
  unfold moduleUse
  rw [hc, hl]
  have hp : modulePrefix.isPrefixOf ("MODULE_".toList ++ m) = true := List.isPrefixOf_iff_prefix.2 ⟨m, rfl⟩
  rw [List.find?_cons, hp]
  have := removeAll_prefix (m := m) hi
  simp only [Option.map_some]
  rw [show "MODULE_".toList = modulePrefix from rfl, this]

/-! ## Arguments -/

theorem kindNamed_iff {v : Var} : kindNamed v = true ↔ Intrinsic v.ty ∧ v.kind ≠ [] ∧ v.ty ≠ "character".toList := by
  simp only [kindNamed, Bool.and_eq_true, decide_eq_true_eq, mem_standard, and_assoc]

/-- What is known of the state: the imported names are distinct, and each has its statement. -/
structure Inv (md : List Var) (o : Out) : Prop where
  nodup : o.seen.Nodup
  imports : List.Forall₂ (Imports md) o.seen o.uses

theorem forall₂_snoc {R : α → β → Prop} {l : List α} {m : List β} {a b} (h : List.Forall₂ R l m) (hab : R a b) :
    List.Forall₂ R (l ++ [a]) (m ++ [b]) := by
  induction h with
  | nil => exact .cons hab .nil
  | cons h1 _ ih => exact .cons h1 ih

theorem use_some {md : List Var} {n : Str} {o o' : Out} (h : use md n o = some o') (hi : Inv md o) :
    Inv md o' ∧ o'.args = o.args ∧ o'.defs = o.defs ∧ o'.ptrs = o.ptrs ∧ ∀ k, k ∈ o'.seen ↔ k ∈ o.seen ∨ k = n := by
  unfold use at h
  split at h
  · rename_i hs
    simp only [Option.some.injEq] at h; subst h
    refine ⟨hi, rfl, rfl, rfl, fun k => ⟨.inl, ?_⟩⟩
    rintro (e | rfl)
    · exact e
    · exact hs
  · rename_i hs
    simp only [Option.bind_eq_some_iff, Option.map_eq_some_iff] at h
    obtain ⟨k, hk, u, hu, rfl⟩ := h
    refine ⟨⟨?_, forall₂_snoc hi.imports ⟨k, find_iff.1 hk, fun m hm => ?_⟩⟩, rfl, rfl, rfl, fun k => by simp⟩
    · simp only [List.nodup_append, hi.nodup, List.nodup_cons, List.not_mem_nil, not_false_eq_true, List.nodup_nil, and_self, true_and,
        List.mem_cons, or_false]
      rintro a ha b rfl rfl
      exact hs ha
    · have := moduleUse_inModule hm
      rw [hu] at this
      simpa using this

theorem step_some {md : List Var} {o o' : Out} {v : Var} (h : step md o v = some o') (hi : Inv md o) :
    Inv md o' ∧ o'.args = o.args ++ [v.loc] ∧ (∃ d, Declares md v d ∧ o'.defs = o.defs ++ [d]) ∧ o'.ptrs = o.ptrs ∧
      ∀ k, k ∈ o'.seen ↔ k ∈ o.seen ∨ Needs v k := by
  unfold step at h
  simp only [Option.bind_eq_some_iff] at h
  obtain ⟨d, hd, h⟩ := h
  have hd := defIntent_iff.1 hd
  have hj : Inv md { o with args := o.args ++ [v.loc], defs := o.defs ++ [d] } := ⟨hi.nodup, hi.imports⟩
  split at h
  · rename_i hk
    obtain ⟨h1, h2, h3⟩ := kindNamed_iff.1 hk
    obtain ⟨a, b, c, e, f⟩ := use_some h hj
    refine ⟨a, b, ⟨d, hd, c⟩, e, fun k => ?_⟩
    rw [f k]
    constructor
    · rintro (x | rfl)
      · exact .inl x
      · exact .inr (.kind h1 h3 h2)
    · rintro (x | x)
      · exact .inl x
      · cases x with
        | kind => exact .inr rfl
        | type x => exact absurd h1 x
  · rename_i hk
    split at h
    · rename_i hs
      have hs' : ¬ Intrinsic v.ty := fun e => hs (mem_standard.2 e)
      obtain ⟨a, b, c, e, f⟩ := use_some h hj
      refine ⟨a, b, ⟨d, hd, c⟩, e, fun k => ?_⟩
      rw [f k]
      constructor
      · rintro (x | rfl)
        · exact .inl x
        · exact .inr (.type hs')
      · rintro (x | x)
        · exact .inl x
        · cases x with
          | kind x => exact absurd x hs'
          | type => exact .inr rfl
    · rename_i hs
      simp only [Option.some.injEq] at h; subst h
      refine ⟨hj, rfl, ⟨d, hd, rfl⟩, rfl, fun k => ⟨.inl, ?_⟩⟩
      rintro (x | x)
      · exact x
      · cases x with
        | kind a b c => exact absurd (kindNamed_iff.2 ⟨a, c, b⟩) hk
        | type x => exact absurd (mem_standard.1 (by simpa using hs)) x

theorem forall₂_append {R : α → β → Prop} {l l' : List α} {m m' : List β} (h : List.Forall₂ R l m) (k : List.Forall₂ R l' m') :
    List.Forall₂ R (l ++ l') (m ++ m') := by
  induction h with
  | nil => exact k
  | cons h1 _ ih => exact .cons h1 ih

theorem steps_some {md : List Var} : ∀ {ws : List Var} {o o' : Out}, ws.foldlM (step md) o = some o' → Inv md o →
    Inv md o' ∧ o'.args = o.args ++ ws.map (·.loc) ∧ (∃ ds, List.Forall₂ (Declares md) ws ds ∧ o'.defs = o.defs ++ ds) ∧ o'.ptrs = o.ptrs ∧
      ∀ k, k ∈ o'.seen ↔ k ∈ o.seen ∨ ∃ v ∈ ws, Needs v k
  | [], o, o', h, hi => by
    simp only [List.foldlM_nil, Option.pure_def, Option.some.injEq] at h; subst h
    exact ⟨hi, by simp, ⟨[], .nil, by simp⟩, rfl, by simp⟩
  | v :: ws, o, o', h, hi => by
    simp only [List.foldlM_cons, Option.bind_eq_bind, Option.bind_eq_some_iff] at h
    obtain ⟨o1, h1, h2⟩ := h
    obtain ⟨i1, a1, ⟨d, hd, d1⟩, p1, s1⟩ := step_some h1 hi
    obtain ⟨i2, a2, ⟨ds, hds, d2⟩, p2, s2⟩ := steps_some h2 i1
    refine ⟨i2, by simp [a2, a1], ⟨d :: ds, .cons hd hds, by simp [d2, d1]⟩, p2.trans p1, fun k => ?_⟩
    rw [s2, s1]
    simp [or_assoc]

/-- The scalars among variables, and the arrays. -/
theorem pass_eq {md : List Var} {b : Bool} : ∀ {vs : List Var} {o : Out},
    pass md b vs o = (vs.filter fun v => !(v.dims.isEmpty == b)).foldlM (step md) o
  | [], o => rfl
  | v :: vs, o => by
    have ih := fun o => pass_eq (md := md) (b := b) (vs := vs) (o := o)
    unfold pass at ih ⊢
    rw [List.foldlM_cons, List.filter_cons]
    cases h : v.dims.isEmpty == b
    · simp only [Bool.false_eq_true, ↓reduceIte, Bool.not_false, List.foldlM_cons, Option.bind_eq_bind]
      congr 1
      funext o
      exact ih o
    · simp only [↓reduceIte, Bool.not_true, Bool.false_eq_true, Option.bind_eq_bind, Option.bind_some]
      exact ih o

/-- The scalars, then the arrays. -/
def scalarsFirst (vs : List Var) : List Var := (vs.filter fun v => v.dims.isEmpty) ++ vs.filter fun v => !v.dims.isEmpty

theorem arguments_eq (md vs : List Var) : arguments md vs = (scalarsFirst vs).foldlM (step md) ⟨[], [], [], [], []⟩ := by
  unfold arguments scalarsFirst
  rw [pass_eq, List.foldlM_append]
  simp only [Option.bind_eq_bind]
  have : (fun v : Var => !(v.dims.isEmpty == false)) = fun v => v.dims.isEmpty := by
    funext v; cases v.dims.isEmpty <;> rfl
  rw [this]
  congr 1
  funext o
  rw [pass_eq]
  congr 2
  funext v; cases v.dims.isEmpty <;> rfl

theorem mem_scalarsFirst {vs : List Var} {v : Var} : v ∈ scalarsFirst vs ↔ v ∈ vs := by
  unfold scalarsFirst
  simp only [List.mem_append, List.mem_filter]
  cases v.dims.isEmpty <;> simp

/-! ## Local variables -/

theorem use_ptrs {md : List Var} {n : Str} {o o' : Out} (h : use md n o = some o') : o'.ptrs = o.ptrs := by
  unfold use at h
  split at h
  · simp only [Option.some.injEq] at h; subst h; rfl
  · simp only [Option.bind_eq_some_iff, Option.map_eq_some_iff] at h
    obtain ⟨k, hk, u, hu, rfl⟩ := h
    rfl

theorem kinds_some {md : List Var} {v : Var} {o o' : Out} (h : (if kindNamed v then use md v.kind o else some o) = some o') (hi : Inv md o) :
    Inv md o' ∧ o'.args = o.args ∧ o'.defs = o.defs ∧ o'.ptrs = o.ptrs ∧
      ∀ k, k ∈ o'.seen ↔ k ∈ o.seen ∨ (Intrinsic v.ty ∧ Needs v k) := by
  split at h
  · rename_i hk
    obtain ⟨h1, h2, h3⟩ := kindNamed_iff.1 hk
    obtain ⟨a, b, c, e, f⟩ := use_some h hi
    refine ⟨a, b, c, e, fun k => ?_⟩
    rw [f k]
    constructor
    · rintro (x | rfl)
      · exact .inl x
      · exact .inr ⟨h1, .kind h1 h3 h2⟩
    · rintro (x | ⟨_, x⟩)
      · exact .inl x
      · cases x with
        | kind => exact .inr rfl
        | type x => exact absurd h1 x
  · rename_i hk
    simp only [Option.some.injEq] at h; subst h
    refine ⟨hi, rfl, rfl, rfl, fun k => ⟨.inl, ?_⟩⟩
    rintro (x | ⟨y, x⟩)
    · exact x
    · cases x with
      | kind a b c => exact absurd (kindNamed_iff.2 ⟨a, c, b⟩) hk
      | type x => exact absurd y x

theorem locals_some {md : List Var} : ∀ {ts : List (Bool × Var)} {o o' : Out} {seen : List Var},
    ts.foldlM (stepLocal md) o = some o' → Inv md o → (∀ n, n ∈ o.ptrs ↔ ∃ w ∈ seen, ptrType w = n) →
    (∀ v, (v ∈ seen ∨ (true, v) ∈ ts) → ∀ w, (w ∈ seen ∨ (true, w) ∈ ts) → ptrType v = ptrType w → SameTarget v w) →
    Inv md o' ∧ o'.args = o.args ∧ (∃ ds, Locals ptrType seen ts ds ∧ o'.defs = o.defs ++ ds) ∧
      ∀ k, k ∈ o'.seen ↔ k ∈ o.seen ∨ ∃ t ∈ ts, Intrinsic t.2.ty ∧ Needs t.2 k
  | [], o, o', seen, h, hi, _, _ => by
    simp only [List.foldlM_nil, Option.pure_def, Option.some.injEq] at h; subst h
    exact ⟨hi, rfl, ⟨[], .nil, by simp⟩, by simp⟩
  | (p, v) :: ts, o, o', seen, h, hi, hp, hn => by
    simp only [List.foldlM_cons, Option.bind_eq_bind, Option.bind_eq_some_iff] at h
    obtain ⟨o2, h1, h2⟩ := h
    unfold stepLocal at h1
    simp only [Option.bind_eq_some_iff] at h1
    obtain ⟨o1, h0, h1⟩ := h1
    cases p with
    | false =>
      simp only [Bool.false_eq_true, ↓reduceIte, Option.map_eq_some_iff] at h0
      obtain ⟨d, hd, rfl⟩ := h0
      have hd := defLocal_some hd
      obtain ⟨i1, a1, d1, p1, s1⟩ := kinds_some h1 ⟨hi.nodup, hi.imports⟩
      have hp1 : ∀ n, n ∈ o2.ptrs ↔ ∃ w ∈ seen, ptrType w = n := by rw [p1]; exact hp
      have hn1 : ∀ v, (v ∈ seen ∨ (true, v) ∈ ts) → ∀ w, (w ∈ seen ∨ (true, w) ∈ ts) → ptrType v = ptrType w → SameTarget v w :=
        fun v hv w hw => hn v (hv.imp id (.tail _)) w (hw.imp id (.tail _))
      obtain ⟨i2, a2, ⟨ds, hl, d2⟩, s2⟩ := locals_some h2 i1 hp1 hn1
      refine ⟨i2, by rw [a2, a1], ⟨d :: ds, .var hd hl, by simp [d2, d1]⟩, fun k => ?_⟩
      rw [s2, s1]
      simp [or_assoc]
    | true =>
      simp only [↓reduceIte] at h0
      split at h0
      · rename_i hm
        simp only [Option.some.injEq] at h0; subst h0
        obtain ⟨i1, a1, d1, p1, s1⟩ := kinds_some h1 ⟨hi.nodup, hi.imports⟩
        have hp1 : ∀ n, n ∈ o2.ptrs ↔ ∃ w ∈ seen, ptrType w = n := by rw [p1]; exact hp
        have hn1 : ∀ v, (v ∈ seen ∨ (true, v) ∈ ts) → ∀ w, (w ∈ seen ∨ (true, w) ∈ ts) → ptrType v = ptrType w → SameTarget v w :=
          fun v hv w hw => hn v (hv.imp id (.tail _)) w (hw.imp id (.tail _))
        obtain ⟨i2, a2, ⟨ds, hl, d2⟩, s2⟩ := locals_some h2 i1 hp1 hn1
        obtain ⟨w, hw, hwn⟩ := (hp _).1 hm
        refine ⟨i2, by rw [a2, a1], ⟨_, .again hw hwn (hn w (.inl hw) v (.inr (.head _)) hwn) hl, ?_⟩, fun k => ?_⟩
        · rw [d2, d1, List.append_assoc]; rfl
        · rw [s2, s1]
          simp [or_assoc]
      · rename_i hm
        simp only [Option.map_eq_some_iff] at h0
        obtain ⟨d, hd, rfl⟩ := h0
        have hd := defLocal_some hd
        obtain ⟨i1, a1, d1, p1, s1⟩ := kinds_some h1 ⟨hi.nodup, hi.imports⟩
        have hp1 : ∀ n, n ∈ o2.ptrs ↔ ∃ w ∈ v :: seen, ptrType w = n := by
          intro n
          rw [p1]
          rw [List.mem_append, hp, List.mem_singleton]
          simp only [List.mem_cons, exists_eq_or_imp]
          constructor
          · rintro (e | e)
            · exact .inr e
            · exact .inl e.symm
          · rintro (e | e)
            · exact .inr e.symm
            · exact .inl e
        have mem : ∀ {w}, (w ∈ v :: seen ∨ (true, w) ∈ ts) → (w ∈ seen ∨ (true, w) ∈ (true, v) :: ts) := by
          rintro w (hw | hw)
          · rcases List.mem_cons.1 hw with rfl | hw
            · exact .inr (.head _)
            · exact .inl hw
          · exact .inr (.tail _ hw)
        obtain ⟨i2, a2, ⟨ds, hl, d2⟩, s2⟩ := locals_some h2 i1 hp1 fun v hv w hw => hn v (mem hv) w (mem hw)
        refine ⟨i2, by rw [a2, a1], ⟨_, .first (fun w hw e => hm ((hp _).2 ⟨w, hw, e⟩)) hd hl, ?_⟩, fun k => ?_⟩
        · rw [d2, d1, List.append_assoc]; rfl
        · rw [s2, s1]
          simp [or_assoc]

theorem forall₂_split {R : α → β → Prop} : ∀ {l l' : List α} {m : List β}, List.Forall₂ R (l ++ l') m →
    ∃ a b, List.Forall₂ R l a ∧ List.Forall₂ R l' b ∧ m = a ++ b
  | [], _, m, h => ⟨[], m, .nil, h, rfl⟩
  | _ :: _, _, _, h => by
    cases h with
    | cons h1 h2 =>
      obtain ⟨a, b, ha, hb, rfl⟩ := forall₂_split h2
      exact ⟨_ :: a, b, .cons h1 ha, hb, rfl⟩

theorem forall₂_left {R : α → β → Prop} {l : List α} {m : List β} (h : List.Forall₂ R l m) {a : α} (ha : a ∈ l) : ∃ b, R a b := by
  induction h with
  | nil => cases ha
  | cons h1 _ ih =>
    rcases List.mem_cons.1 ha with rfl | ha
    · exact ⟨_, h1⟩
    · exact ih ha

theorem use_defs {md : List Var} {n : Str} {o o' : Out} (h : use md n o = some o') : o'.defs = o.defs := by
  unfold use at h
  split at h
  · simp only [Option.some.injEq] at h; subst h; rfl
  · simp only [Option.bind_eq_some_iff, Option.map_eq_some_iff] at h
    obtain ⟨k, hk, u, hu, rfl⟩ := h
    rfl

theorem locals_extend {md : List Var} : ∀ {ts : List (Bool × Var)} {o o' : Out}, ts.foldlM (stepLocal md) o = some o' →
    ∃ m, o'.defs = o.defs ++ m
  | [], o, o', h => by
    simp only [List.foldlM_nil, Option.pure_def, Option.some.injEq] at h; subst h
    exact ⟨[], by simp⟩
  | (p, v) :: ts, o, o', h => by
    simp only [List.foldlM_cons, Option.bind_eq_bind, Option.bind_eq_some_iff] at h
    obtain ⟨o2, h1, h2⟩ := h
    obtain ⟨m, hm⟩ := locals_extend h2
    unfold stepLocal at h1
    simp only [Option.bind_eq_some_iff] at h1
    obtain ⟨o1, h0, h1⟩ := h1
    have e : o2.defs = o1.defs := by
      split at h1
      · exact use_defs h1
      · simp only [Option.some.injEq] at h1; subst h1; rfl
    have : ∃ x, o1.defs = o.defs ++ x := by
      split at h0
      · split at h0
        · simp only [Option.some.injEq] at h0; subst h0; exact ⟨_, rfl⟩
        · simp only [Option.map_eq_some_iff] at h0
          obtain ⟨d, _, rfl⟩ := h0
          exact ⟨_, rfl⟩
      · simp only [Option.map_eq_some_iff] at h0
        obtain ⟨d, _, rfl⟩ := h0
        exact ⟨_, rfl⟩
    obtain ⟨x, hx⟩ := this
    exact ⟨x ++ m, by rw [hm, e, hx, List.append_assoc]⟩

/-! ## The theorems -/

/-- The property, with two restrictions: the imported names are those that the arguments need and the kinds of the local variables (missing:
their derived types, see `C104_type_violated`), and pointers that get the same derived type must have the same type, kind and rank (missing:
`C104_pointer_violated`). -/
theorem C104_partial {md vs : List Var} {tmps : List (Bool × Var)} {o : Out} (h : create md vs tmps = some o)
    (hn : ∀ v w, (true, v) ∈ tmps → (true, w) ∈ tmps → ptrType v = ptrType w → SameTarget v w) :
    ∃ ws ds ls ns,
      ws = (vs.filter fun v => v.dims.isEmpty) ++ (vs.filter fun v => !v.dims.isEmpty) ∧
      o.args = ws.map (·.loc) ∧
      List.Forall₂ (Declares md) ws ds ∧
      Locals ptrType [] tmps ls ∧
      ((tmps = [] ∧ o.defs = ds) ∨
        o.defs = ds ++ ["".toList, "! Local variables/pointers for unit conversions, array transformations, ...".toList] ++ ls) ∧
      ns.Nodup ∧ List.Forall₂ (Imports md) ns o.uses ∧
      ∀ n, n ∈ ns ↔ (∃ v ∈ vs, Needs v n) ∨ ∃ t ∈ tmps, Intrinsic t.2.ty ∧ Needs t.2 n := by
  unfold create at h
  simp only [Option.bind_eq_some_iff] at h
  obtain ⟨o1, h1, h2⟩ := h
  rw [arguments_eq] at h1
  obtain ⟨i1, a1, ⟨ds, hds, d1⟩, p1, s1⟩ := steps_some h1 ⟨List.nodup_nil, .nil⟩
  have s1' : ∀ k, k ∈ o1.seen ↔ ∃ v ∈ vs, Needs v k := by
    intro k
    rw [s1]
    simp [mem_scalarsFirst]
  split at h2
  · rename_i ht
    have ht : tmps = [] := by simpa using ht
    subst ht
    simp only [Option.some.injEq] at h2; subst h2
    exact ⟨_, ds, [], o1.seen, rfl, by rw [a1]; rfl, hds, .nil, .inl ⟨rfl, by simpa using d1⟩, i1.nodup, i1.imports, by simpa using s1'⟩
  · have hp0 : ∀ n, n ∈ o1.ptrs ↔ ∃ w ∈ ([] : List Var), ptrType w = n := by rw [p1]; simp
    obtain ⟨i2, a2, ⟨ls, hl, d2⟩, s2⟩ := locals_some h2 ⟨i1.nodup, i1.imports⟩ hp0
      (fun v hv w hw => hn v w (by simpa using hv) (by simpa using hw))
    refine ⟨_, ds, ls, o.seen, rfl, by rw [a2]; exact a1, hds, hl, .inr ?_, i2.nodup, i2.imports, fun n => ?_⟩
    · rw [d2]; simp [d1]
    · rw [s2, ← s1']

/-- Every scalar argument is declared before every array. -/
theorem C104_scalars_first {md vs : List Var} {tmps : List (Bool × Var)} {o : Out} (h : create md vs tmps = some o)
    {v s : Var} (hv : v ∈ vs) (hd : v.dims ≠ []) (hs : s ∈ vs) (h0 : s.dims = []) :
    ∃ a b c x y, o.defs = a ++ x :: (b ++ y :: c) ∧ Declares md s x ∧ Declares md v y := by
  unfold create at h
  simp only [Option.bind_eq_some_iff] at h
  obtain ⟨o1, h1, h2⟩ := h
  rw [arguments_eq] at h1
  obtain ⟨i1, a1, ⟨ds, hds, d1⟩, p1, s1⟩ := steps_some h1 ⟨List.nodup_nil, .nil⟩
  have key : ∃ a b c x y, ds = a ++ x :: (b ++ y :: c) ∧ Declares md s x ∧ Declares md v y := by
    have h1 : s ∈ vs.filter fun v => v.dims.isEmpty := by simp [hs, h0]
    have h2 : v ∈ vs.filter fun v => !v.dims.isEmpty := by simp [hv, hd]
    obtain ⟨l1, l2, e1⟩ := List.append_of_mem h1
    obtain ⟨r1, r2, e2⟩ := List.append_of_mem h2
    unfold scalarsFirst at hds
    have e3 : (l1 ++ s :: l2) ++ (r1 ++ v :: r2) = l1 ++ s :: ((l2 ++ r1) ++ v :: r2) := by simp
    rw [e1, e2, e3] at hds
    obtain ⟨a, t, ha, ht, rfl⟩ := forall₂_split (l := l1) (l' := s :: ((l2 ++ r1) ++ v :: r2)) hds
    cases ht with
    | cons hx ht' =>
      obtain ⟨b, t2, hb, ht2, rfl⟩ := forall₂_split (l := l2 ++ r1) (l' := v :: r2) ht'
      cases ht2 with
      | cons hy ht => exact ⟨a, b, _, _, _, rfl, hx, hy⟩
  obtain ⟨more, hm⟩ : ∃ more, o.defs = o1.defs ++ more := by
    split at h2
    · simp only [Option.some.injEq] at h2; subst h2; exact ⟨[], by simp⟩
    · obtain ⟨m, hm⟩ := locals_extend h2
      exact ⟨_, by rw [hm]; exact List.append_assoc _ _ _⟩
  obtain ⟨a, b, c, x, y, rfl, hx, hy⟩ := key
  exact ⟨a, b, c ++ more, x, y, by rw [hm, d1]; simp, hx, hy⟩

/-! ### Success and errors -/

theorem use_complete {md : List Var} {n : Str} (h : Importable md n) (o : Out) : ∃ o', use md n o = some o' := by
  obtain ⟨k, m, hk, hm⟩ := h
  unfold use
  split
  · exact ⟨_, rfl⟩
  · rw [find_iff.2 hk]
    simp [moduleUse_inModule hm]

theorem step_complete {md : List Var} {v : Var} {d : Str} (hd : Declares md v d) (hn : ∀ n, Needs v n → Importable md n) (o : Out) :
    ∃ o', step md o v = some o' := by
  unfold step
  rw [defIntent_iff.2 hd]
  simp only [Option.bind_some]
  split
  · rename_i hk
    obtain ⟨h1, h2, h3⟩ := kindNamed_iff.1 hk
    exact use_complete (hn _ (.kind h1 h3 h2)) _
  · split
    · rename_i hs
      exact use_complete (hn _ (.type fun e => hs (mem_standard.2 e))) _
    · exact ⟨_, rfl⟩

theorem foldlM_complete {f : σ → α → Option σ} : ∀ {l : List α}, (∀ a ∈ l, ∀ s, ∃ s', f s a = some s') → ∀ s, ∃ s', l.foldlM f s = some s'
  | [], _, s => ⟨s, rfl⟩
  | a :: l, h, s => by
    obtain ⟨s1, h1⟩ := h a (.head _) s
    obtain ⟨s2, h2⟩ := foldlM_complete (fun b hb => h b (.tail _ hb)) s1
    exact ⟨s2, by simp [List.foldlM_cons, h1, h2]⟩

theorem defLocal_complete {p : Bool} {v : Var} {ty : Str} (ha : v.active = "T".toList) (ht : TypeSpec v ty) :
    ∃ d, defLocal p v = some d := by
  unfold defLocal
  rw [if_neg (by simpa using ha), base_iff.2 ht]
  exact ⟨_, rfl⟩

theorem stepLocal_complete {md : List Var} {t : Bool × Var} (ha : t.2.active = "T".toList) (ht : ∃ ty, TypeSpec t.2 ty)
    (hn : ∀ n, Intrinsic t.2.ty → Needs t.2 n → Importable md n) (o : Out) : ∃ o', stepLocal md o t = some o' := by
  obtain ⟨ty, ht⟩ := ht
  have fin : ∀ o : Out, ∃ o', (if kindNamed t.2 then use md t.2.kind o else some o) = some o' := by
    intro o
    split
    · rename_i hk
      obtain ⟨h1, h2, h3⟩ := kindNamed_iff.1 hk
      exact use_complete (hn _ h1 (.kind h1 h3 h2)) _
    · exact ⟨_, rfl⟩
  unfold stepLocal
  obtain ⟨d1, e1⟩ := defLocal_complete (p := true) ha ht
  obtain ⟨d2, e2⟩ := defLocal_complete (p := false) ha ht
  simp only [e1, e2, Option.map_some]
  split
  · split
    · exact fin _
    · exact fin _
  · exact fin _

/-- The declarations are written if all variables can be declared and all names they need can be imported. -/
theorem C104_complete {md vs : List Var} {tmps : List (Bool × Var)}
    (hd : ∀ v ∈ vs, ∃ d, Declares md v d) (hn : ∀ v ∈ vs, ∀ n, Needs v n → Importable md n)
    (ht : ∀ t ∈ tmps, t.2.active = "T".toList ∧ (∃ ty, TypeSpec t.2 ty) ∧ ∀ n, Intrinsic t.2.ty → Needs t.2 n → Importable md n) :
    ∃ o, create md vs tmps = some o := by
  unfold create
  rw [arguments_eq]
  obtain ⟨o1, h1⟩ := foldlM_complete (f := step md) (l := scalarsFirst vs)
    (fun v hv o => by
      obtain ⟨d, h⟩ := hd v (mem_scalarsFirst.1 hv)
      exact step_complete h (hn v (mem_scalarsFirst.1 hv)) o) ⟨[], [], [], [], []⟩
  rw [h1]
  simp only [Option.bind_some]
  split
  · exact ⟨_, rfl⟩
  · exact foldlM_complete (fun t h o => stepLocal_complete (ht t h).1 (ht t h).2.1 (ht t h).2.2 o) _

/-- Nothing is written if an argument cannot be declared (a bound of a dimension, upper or lower, is not known, a derived type has a kind, the
variable is optional), or if a kind or type of an argument is not known. -/
theorem C104_rejected {md vs : List Var} {tmps : List (Bool × Var)}
    (h : ∃ v ∈ vs, (∀ d, ¬ Declares md v d) ∨ ∃ n, Needs v n ∧ ∀ k, ¬ FirstNamed md n k) : create md vs tmps = none := by
  rw [Option.eq_none_iff_forall_ne_some]
  intro o ho
  unfold create at ho
  simp only [Option.bind_eq_some_iff] at ho
  obtain ⟨o1, h1, _⟩ := ho
  rw [arguments_eq] at h1
  obtain ⟨i1, _, ⟨ds, hds, _⟩, _, s1⟩ := steps_some h1 ⟨List.nodup_nil, .nil⟩
  obtain ⟨v, hv, h⟩ := h
  rcases h with h | ⟨n, hn, h⟩
  · obtain ⟨d, hd⟩ := forall₂_left hds (mem_scalarsFirst.2 hv)
    exact h d hd
  · obtain ⟨u, k, hk, _⟩ := forall₂_left i1.imports ((s1 n).2 (.inr ⟨v, mem_scalarsFirst.2 hv, hn⟩))
    exact h k hk

/-! ### Concrete cases -/

/-- A variable of the host for the examples. -/
def hostVar (std loc ty kind : String) (dims : List String) : Var :=
  ⟨std.toList, loc.toList, ty.toList, kind.toList, dims.map String.toList, "in".toList, "T".toList, "F".toList, "MODULE_mod".toList⟩

/-- The metadata of the host for the examples. -/
def exampleHost : List Var :=
  [hostVar "kind_phys" "kp" "integer" "" [], hostVar "lower" "lo" "integer" "" [], hostVar "levels" "nz" "integer" "" [],
    hostVar "temperature" "t" "real" "kind_phys" ["5", "lower:levels"], hostVar "flag" "flag" "logical" "" [],
    hostVar "box" "b" "box" "" [], hostVar "element" "b%e" "element" "" [], hostVar "element_lower" "m(1)%lo" "integer" "" [],
    hostVar "models" "m" "box" "" ["3"], hostVar "wind" "u" "real" "" ["element_lower:levels"]]

/-- An array, then a scalar: the scalar is declared first; a lower bound is the local name; the upper bound is not shown. -/
example : (create exampleHost [hostVar "temperature" "t" "real" "kind_phys" ["5", "lower:levels"], hostVar "lower" "lo" "integer" "" []] []).map
    (fun o => (o.args, o.uses, o.defs)) =
    some (["lo".toList, "t".toList], ["use mod, only: kp".toList],
      ["integer, intent(in), target :: lo".toList, "real(kind_phys), intent(in), target :: t(1:,lo:)".toList]) := by decide +kernel

/-- The hypothesis of C104_partial for two pointers of different rank. -/
example : ∀ v ∈ [hostVar "temperature" "t_1_ptr" "real" "kind_phys" ["5"], hostVar "temperature" "s_1_ptr" "real" "kind_phys" []],
    ∀ w ∈ [hostVar "temperature" "t_1_ptr" "real" "kind_phys" ["5"], hostVar "temperature" "s_1_ptr" "real" "kind_phys" []],
    ptrType v = ptrType w → (v.ty = w.ty ∧ v.kind = w.kind ∧ v.dims.length = w.dims.length) := by decide +kernel

/-- The order does not help if a lower bound refers to an array: the array `m` is declared after it is used. -/
theorem C104_order_violated :
    (create exampleHost [hostVar "wind" "u" "real" "" ["element_lower:levels"], hostVar "models" "m" "box" "" ["3"]] []).map (·.defs) =
      some ["real, intent(in), target :: u(m(1)%lo:)".toList, "type(box), intent(in), target :: m(1:)".toList] := by decide +kernel

/-- The derived type of a local variable is not imported. -/
theorem C104_type_violated :
    (create exampleHost [hostVar "box" "b" "box" "" []] [(false, hostVar "element" "tmpvar_1" "element" "" [])]).map (fun o => (o.uses, o.defs)) =
      some (["use mod, only: b".toList], ["type(box), intent(in), target :: b".toList, [],
        "! Local variables/pointers for unit conversions, array transformations, ...".toList, "type(element), target :: tmpvar_1".toList]) := by
  decide +kernel

/-- A pointer to a real variable without kind gets the type of a pointer to one with the kind `default_kind`. -/
theorem C104_pointer_violated : ∃ v w : Var, v.ty = "real".toList ∧ w.ty = "real".toList ∧ v.kind ≠ w.kind ∧ ptrType v = ptrType w ∧
    ∃ o, create (hostVar "default_kind" "dk" "integer" "" [] :: exampleHost) [] [(true, v), (true, w)] = some o ∧
      o.defs.drop 2 = [typeBlock (ptrType v) "real(default_kind), pointer :: p => null()".toList, arrayDecl (ptrType v) v.loc,
        arrayDecl (ptrType v) w.loc] :=
  ⟨hostVar "a" "a_1_ptr" "real" "default_kind" [], hostVar "b" "b_2_ptr" "real" "" [], by decide +kernel, by decide +kernel, by decide +kernel,
    by decide +kernel, _, rfl, by decide +kernel⟩

end Ccpp.Decls
