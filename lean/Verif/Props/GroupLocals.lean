import Verif.Spec.GroupLocals
/-!
# C105: the local variables of a group of the suite cap
-/
namespace Ccpp.GL

/-! ## Collection -/

/-- The arrays of the group. -/
def isArr (v : GVar) : Bool := !v.dims.isEmpty && !v.optional
/-- The optional arrays that the host passes. -/
def isOpt (call : List GVar) (v : GVar) : Bool := !v.dims.isEmpty && v.optional && (find call v.std).isSome
/-- The optional arrays that the host does not pass. -/
def isAbs (call : List GVar) (v : GVar) : Bool := !v.dims.isEmpty && v.optional && !(find call v.std).isSome
/-- An entry of a dictionary. -/
def entry (v : GVar) : Str × GVar := (v.loc, v)

theorem has_iff {l : List (Str × GVar)} {n : Str} : has l n = true ↔ ∃ e ∈ l, e.1 = n := by
  simp [has]

theorem collect_own {compat : GVar → GVar → Bool} {call : List GVar} : ∀ {own : List GVar} {s : Coll},
    (own.map (·.loc)).Nodup → (∀ v ∈ own, has s.alloc v.loc = false ∧ has s.opt v.loc = false ∧ has s.scal v.loc = false) →
    own.foldlM (collectOne compat call) s = some
      { alloc := s.alloc ++ (own.filter isArr).map entry
        opt := s.opt ++ (own.filter (isOpt call)).map entry
        scal := s.scal ++ (own.filter fun v => v.dims.isEmpty).map entry
        inactive := s.inactive ++ own.filter (isAbs call) }
  | [], s, _, _ => by simp
  | v :: own, s, hn, hs => by
    simp only [List.map_cons, List.nodup_cons, List.mem_map, not_exists, not_and] at hn
    obtain ⟨h1, h2, h3⟩ := hs v (.head _)
    have step : ∃ s', collectOne compat call s v = some s' ∧
        s'.alloc = s.alloc ++ ([v].filter isArr).map entry ∧ s'.opt = s.opt ++ ([v].filter (isOpt call)).map entry ∧
        s'.scal = s.scal ++ ([v].filter fun v => v.dims.isEmpty).map entry ∧ s'.inactive = s.inactive ++ [v].filter (isAbs call) := by
      unfold collectOne
      rw [h1, h2, h3]
      simp only [Bool.or_self, Bool.false_eq_true, ↓reduceIte]
      by_cases hd : v.dims = []
      · simp [hd, isArr, isOpt, isAbs, entry]
      · by_cases ho : v.optional
        · cases hc : (find call v.std).isSome <;> simp [hd, ho, hc, isArr, isOpt, isAbs, entry]
        · simp [hd, ho, isArr, isOpt, isAbs, entry]
    obtain ⟨s', e, ea, eo, es, ei⟩ := step
    rw [List.foldlM_cons, e]
    simp only [Option.bind_eq_bind, Option.bind_some]
    have notIn : ∀ (p : GVar → Bool) (w : GVar), w ∈ own → has (([v].filter p).map entry) w.loc = false := by
      intro p w hw
      rw [Bool.eq_false_iff]
      intro h
      obtain ⟨x, hx, hxw⟩ := has_iff.1 h
      simp only [List.mem_map, List.mem_filter, List.mem_singleton] at hx
      obtain ⟨y, ⟨rfl, _⟩, rfl⟩ := hx
      exact hn.1 w hw hxw.symm
    have app : ∀ (a b : List (Str × GVar)) n, has (a ++ b) n = (has a n || has b n) := by intro a b n; simp [has]
    rw [collect_own hn.2 (s := s')]
    · rw [ea, eo, es, ei]
      simp only [List.append_assoc, ← List.map_append, ← List.filter_append, List.singleton_append]
    · intro w hw
      obtain ⟨a, b, c⟩ := hs w (.tail _ hw)
      rw [ea, eo, es, app, app, app, a, b, c, notIn _ w hw, notIn _ w hw, notIn _ w hw]
      simp

/-! ## Copies -/

theorem setEntry_mem {k : Str} {v : GVar} : ∀ {l : List (Str × GVar)}, (∀ w, (k, w) ∈ l → w = v) → ∀ e, e ∈ setEntry k v l ↔ e ∈ l ∨ e = (k, v)
  | [], _, e => by simp [setEntry]
  | x :: l, h, e => by
    unfold setEntry
    split
    · rename_i hx
      have hv : x = (k, v) := by
        have := h x.2 (by rw [← hx]; exact .head _)
        rw [← hx, ← this]
      rw [hv]
      simp only [List.mem_cons]
      tauto
    · simp only [List.mem_cons, setEntry_mem (fun w hw => h w (.tail _ hw))]
      tauto

theorem setEntry_keys {k : Str} {v : GVar} : ∀ {l : List (Str × GVar)}, ∀ n, n ∈ (setEntry k v l).map (·.1) ↔ n ∈ l.map (·.1) ∨ n = k
  | [], n => by simp [setEntry]
  | x :: l, n => by
    unfold setEntry
    split
    · rename_i hx
      simp only [List.map_cons, List.mem_cons, hx]
      tauto
    · simp only [List.map_cons, List.mem_cons, setEntry_keys]
      tauto

theorem setEntry_nodup {k : Str} {v : GVar} : ∀ {l : List (Str × GVar)}, (l.map (·.1)).Nodup → ((setEntry k v l).map (·.1)).Nodup
  | [], _ => by simp [setEntry]
  | x :: l, h => by
    simp only [List.map_cons, List.nodup_cons] at h
    unfold setEntry
    split
    · rename_i hx
      simp only [List.map_cons, List.nodup_cons]
      exact ⟨hx ▸ h.1, h.2⟩
    · rename_i hx
      simp only [List.map_cons, List.nodup_cons, setEntry_keys]
      exact ⟨fun e => e.elim h.1 hx, setEntry_nodup h.2⟩

/-- The state after the copies. -/
structure After (s t : Coll) (copies : List GVar) : Prop where
  alloc : ∀ e, e ∈ t.alloc ↔ e ∈ s.alloc ∨ ∃ v ∈ copies, v.dims ≠ [] ∧ e = entry v
  scal : ∀ e, e ∈ t.scal ↔ e ∈ s.scal ∨ ∃ v ∈ copies, v.dims = [] ∧ e = entry v
  opt : t.opt = s.opt
  inactive : t.inactive = s.inactive
  nodupA : (s.alloc.map (·.1)).Nodup → (t.alloc.map (·.1)).Nodup
  nodupS : (s.scal.map (·.1)).Nodup → (t.scal.map (·.1)).Nodup

theorem addCopies {s : Coll} : ∀ {copies : List GVar} {t : Coll} {before : List GVar}, After s t before →
    (∀ v ∈ before ++ copies, ∀ w ∈ before ++ copies, v.loc = w.loc → v = w) →
    (∀ v ∈ before ++ copies, ∀ w, (v.loc, w) ∉ s.alloc ∧ (v.loc, w) ∉ s.scal) →
    After s (copies.foldl addCopy t) (before ++ copies)
  | [], t, before, h, _, _ => by simpa using h
  | c :: copies, t, before, h, hf, hd => by
    have e : before ++ c :: copies = (before ++ [c]) ++ copies := by simp
    have hc : c ∈ before ++ c :: copies := by simp
    have key : After s (addCopy t c) (before ++ [c]) := by
      unfold addCopy
      split
      · rename_i hne
        refine ⟨fun x => ?_, fun x => ?_, h.opt, h.inactive, fun hn => setEntry_nodup (h.nodupA hn), h.nodupS⟩
        · rw [setEntry_mem, h.alloc]
          · simp only [List.mem_append, List.mem_singleton, or_and_right, exists_or, exists_eq_left, entry]
            simp only [hne, ne_eq, not_false_eq_true, true_and]
            exact or_assoc
          · intro w hw
            rcases (h.alloc _).1 hw with hw | ⟨v, hv, _, hw⟩
            · exact absurd hw (hd c hc w).1
            · simp only [entry, Prod.mk.injEq] at hw
              obtain ⟨h1, rfl⟩ := hw
              exact (hf c hc w (by simp [hv]) h1).symm
        · rw [h.scal]
          simp only [List.mem_append, List.mem_singleton, or_and_right, exists_or, exists_eq_left]
          simp [hne]
      · rename_i hne
        have hne : c.dims = [] := by simpa using hne
        refine ⟨fun x => ?_, fun x => ?_, h.opt, h.inactive, h.nodupA, fun hn => setEntry_nodup (h.nodupS hn)⟩
        · rw [h.alloc]
          simp only [List.mem_append, List.mem_singleton, or_and_right, exists_or, exists_eq_left]
          simp [hne]
        · rw [setEntry_mem, h.scal]
          · simp only [List.mem_append, List.mem_singleton, or_and_right, exists_or, exists_eq_left, entry]
            simp only [hne, true_and]
            exact or_assoc
          · intro w hw
            rcases (h.scal _).1 hw with hw | ⟨v, hv, _, hw⟩
            · exact absurd hw (hd c hc w).2
            · simp only [entry, Prod.mk.injEq] at hw
              obtain ⟨h1, rfl⟩ := hw
              exact (hf c hc w (by simp [hv]) h1).symm
    rw [List.foldl_cons, e]
    exact addCopies key (e ▸ hf) (e ▸ hd)

/-! ## Shapes -/

theorem find_none {d : List GVar} {n : Str} : find d n = none ↔ ∀ v ∈ d, v.std ≠ n := by
  simp [find]

theorem find_some {d : List GVar} (hd : (d.map (·.std)).Nodup) {n : Str} {v : GVar} : find d n = some v ↔ v ∈ d ∧ v.std = n := by
  induction d with
  | nil => simp [find]
  | cons w d ih =>
    simp only [List.map_cons, List.nodup_cons, List.mem_map, not_exists, not_and] at hd
    unfold find at ih ⊢
    rw [List.find?_cons]
    by_cases hw : w.std = n
    · have : (w.std == n) = true := by simpa using hw
      rw [this]
      simp only [Option.some.injEq, List.mem_cons]
      constructor
      · rintro rfl; exact ⟨.inl rfl, hw⟩
      · rintro ⟨rfl | h, e⟩
        · rfl
        · exact absurd (e.trans hw.symm) (hd.1 v h)
    · have : (w.std == n) = false := by simpa using hw
      rw [this]
      simp only [ih hd.2, List.mem_cons]
      constructor
      · rintro ⟨h, e⟩; exact ⟨.inr h, e⟩
      · rintro ⟨rfl | h, e⟩
        · exact absurd e hw
        · exact ⟨h, e⟩

theorem boundName_iff {consts own call : List GVar} (h1 : IsDict consts) (h2 : IsDict own) (h3 : IsDict call) {n x : Str} :
    boundName consts own call n = some x ↔ BoundIs consts own call n x := by
  unfold boundName BoundIs
  cases e1 : find consts n with
  | some v =>
    have hv := (find_some h1.1).1 e1
    simp only [Option.orElse_some, Option.map_some, Option.some.injEq]
    constructor
    · rintro rfl; exact .inl ⟨v, hv.1, hv.2, rfl⟩
    · rintro (⟨w, hw, e, rfl⟩ | ⟨h, _⟩ | ⟨h, _⟩)
      · have := (find_some h1.1).2 ⟨hw, e⟩
        rw [e1] at this
        simp only [Option.some.injEq] at this
        rw [this]
      · exact absurd hv.2 (h v hv.1)
      · exact absurd hv.2 (h v hv.1)
  | none =>
    have n1 := find_none.1 e1
    cases e2 : find own n with
    | some v =>
      have hv := (find_some h2.1).1 e2
      simp only [Option.orElse_some, Option.orElse_none, Option.map_some, Option.some.injEq]
      constructor
      · rintro rfl; exact .inr (.inl ⟨n1, v, hv.1, hv.2, rfl⟩)
      · rintro (⟨w, hw, e, rfl⟩ | ⟨_, w, hw, e, rfl⟩ | ⟨_, h, _⟩)
        · exact absurd e (n1 w hw)
        · have := (find_some h2.1).2 ⟨hw, e⟩
          rw [e2] at this
          simp only [Option.some.injEq] at this
          rw [this]
        · exact absurd hv.2 (h v hv.1)
    | none =>
      have n2 := find_none.1 e2
      simp only [Option.orElse_none, Option.map_eq_some_iff, find_some h3.1]
      constructor
      · rintro ⟨v, ⟨hv, e⟩, rfl⟩; exact .inr (.inr ⟨n1, n2, v, hv, e, rfl⟩)
      · rintro (⟨w, hw, e, rfl⟩ | ⟨_, w, hw, e, rfl⟩ | ⟨_, _, w, hw, e, rfl⟩)
        · exact absurd e (n1 w hw)
        · exact absurd e (n2 w hw)
        · exact ⟨w, ⟨hw, e⟩, rfl⟩

theorem mapM_iff {f : α → Option β} {R : α → β → Prop} (h : ∀ a b, f a = some b ↔ R a b) :
    ∀ {l : List α} {m : List β}, l.mapM f = some m ↔ List.Forall₂ R l m
  | [], m => by
    constructor
    · intro e; simp at e; subst e; exact .nil
    · intro e; cases e; rfl
  | a :: l, m => by
    rw [List.mapM_cons]
    simp only [Option.bind_eq_bind, Option.bind_eq_some_iff, Option.pure_def, Option.some.injEq]
    constructor
    · rintro ⟨b, hb, k, hk, rfl⟩
      exact .cons ((h _ _).1 hb) ((mapM_iff h).1 hk)
    · intro e
      cases e with
      | cons h1 h2 => exact ⟨_, (h _ _).2 h1, _, (mapM_iff h).2 h2, rfl⟩

theorem separated_join {sep : Str} : ∀ {l : List Str}, l ≠ [] → Separated sep l (join sep l)
  | [x], _ => .one
  | x :: y :: l, _ => .more (separated_join (l := y :: l) (by simp))

theorem separated_unique {sep : Str} {l : List Str} {t : Str} (h : Separated sep l t) : t = join sep l := by
  induction h with
  | one => rfl
  | more _ ih => rw [ih]; rfl

theorem separated_ne {sep : Str} {l : List Str} {t : Str} (h : Separated sep l t) : l ≠ [] := by
  cases h <;> simp

theorem splitOn_notMem {c : Char} : ∀ {p : Str}, c ∉ p → PB.splitOn c p = [p]
  | [], _ => rfl
  | d :: p, h => by
    simp only [List.mem_cons, not_or] at h
    simp [PB.splitOn, splitOn_notMem h.2, Ne.symm h.1]

theorem splitOn_append {c : Char} : ∀ {p s : Str}, c ∉ p → PB.splitOn c (p ++ c :: s) = p :: PB.splitOn c s
  | [], _, _ => by simp [PB.splitOn]
  | d :: p, s, h => by
    simp only [List.mem_cons, not_or] at h
    simp [PB.splitOn, splitOn_append h.2, Ne.symm h.1]

theorem splitOn_separated {ps : List Str} {d : Str} (h : Separated ":".toList ps d) (hp : ∀ p ∈ ps, ':' ∉ p) : PB.splitOn ':' d = ps := by
  induction h with
  | one => exact splitOn_notMem (hp _ (.head _))
  | @more x y l t h ih =>
    have e : x ++ ":".toList ++ t = x ++ ':' :: t := by simp
    rw [e, splitOn_append (hp x (.head _)), ih fun p hm => hp p (.tail _ hm)]

theorem separated_splitOn : ∀ (d : Str), Separated ":".toList (PB.splitOn ':' d) d ∧ ∀ p ∈ PB.splitOn ':' d, ':' ∉ p
  | [] => ⟨.one, by simp [PB.splitOn]⟩
  | c :: d => by
    obtain ⟨h1, h2⟩ := separated_splitOn d
    unfold PB.splitOn
    split
    · rename_i hc
      subst hc
      constructor
      · cases hs : PB.splitOn ':' d with
        | nil => exact absurd hs (separated_ne h1)
        | cons w ws => exact Separated.more (x := []) (hs ▸ h1)
      · simpa using h2
    · rename_i hc
      cases hs : PB.splitOn ':' d with
      | nil => exact absurd hs (separated_ne h1)
      | cons w ws =>
        rw [hs] at h1 h2
        constructor
        · cases h1 with
          | one => exact .one
          | more h => exact Separated.more (x := c :: _) h
        · intro p hp
          rcases List.mem_cons.1 hp with rfl | hp
          · simp only [List.mem_cons, not_or]
            exact ⟨fun e => hc e.symm, h2 w (.head _)⟩
          · exact h2 p (.tail _ hp)

theorem forall₂_ne {R : α → β → Prop} {l : List α} {m : List β} (h : List.Forall₂ R l m) (hl : l ≠ []) : m ≠ [] := by
  cases h with
  | nil => exact absurd rfl hl
  | cons => simp

theorem dim_iff {consts own call : List GVar} (h1 : IsDict consts) (h2 : IsDict own) (h3 : IsDict call) (d x : Str) :
    ((PB.splitOn ':' d).mapM (boundName consts own call)).map (join ":".toList) = some x ↔ DimIs consts own call d x := by
  simp only [Option.map_eq_some_iff, mapM_iff fun a b => boundName_iff h1 h2 h3 (n := a) (x := b)]
  obtain ⟨hs, hp⟩ := separated_splitOn d
  constructor
  · rintro ⟨xs, hx, rfl⟩
    exact ⟨_, xs, hs, hp, hx, separated_join (forall₂_ne hx (separated_ne hs))⟩
  · rintro ⟨ps, xs, hs', hp', hx, hj⟩
    rw [splitOn_separated hs' hp']
    exact ⟨xs, hx, (separated_unique hj).symm⟩

theorem allocShape_iff {consts own call : List GVar} (h1 : IsDict consts) (h2 : IsDict own) (h3 : IsDict call) {dims : List Str}
    (hne : dims ≠ []) {s : Str} : allocShape consts own call dims = some s ↔ ShapeIs consts own call dims s := by
  have H : ∀ {xs : List Str}, (dims.mapM fun d => ((PB.splitOn ':' d).mapM (boundName consts own call)).map (join ":".toList)) = some xs ↔
      List.Forall₂ (DimIs consts own call) dims xs := fun {xs} => mapM_iff fun a b => dim_iff h1 h2 h3 a b
  unfold allocShape ShapeIs
  rw [Option.map_eq_some_iff]
  constructor
  · rintro ⟨xs, hx, rfl⟩
    exact ⟨xs, H.1 hx, separated_join (forall₂_ne (H.1 hx) hne)⟩
  · rintro ⟨xs, hx, hs⟩
    exact ⟨xs, H.2 hx, (separated_unique hs).symm⟩

/-! ## Pointers -/

theorem pointerOf_is (v : GVar) : IsPointerOf v (pointerOf v) := by
  refine ⟨rfl, rfl, rfl, ?_⟩
  cases hd : v.dims with
  | nil => left; simp [pointerOf, colons, hd]
  | cons d ds =>
    right
    refine ⟨d, ds, rfl, ?_⟩
    have : (List.replicate ds.length [',', ':']) = ds.map fun _ => [',', ':'] := (List.map_const' ..).symm
    simp [pointerOf, colons, hd, ← this]

theorem isPointerOf_iff {v : GVar} {p : Ptr} : IsPointerOf v p ↔ p = pointerOf v := by
  constructor
  · intro h
    obtain ⟨a, b, c, d⟩ := h
    obtain ⟨a', b', c', d'⟩ := pointerOf_is v
    have : p.dims = (pointerOf v).dims := by
      rcases d with ⟨e, d⟩ | ⟨x, xs, e, d⟩ <;> rcases d' with ⟨e', d'⟩ | ⟨y, ys, e', d'⟩
      · rw [d, d']
      · rw [e] at e'; simp at e'
      · rw [e] at e'; simp at e'
      · rw [e] at e'
        simp only [List.cons.injEq] at e'
        rw [d, d', e'.2]
    cases p
    cases hq : pointerOf v
    rw [hq] at a' b' c' this
    simp only at a b c a' b' c' this
    subst a b c this
    rw [a', b', c']
  · rintro rfl
    exact pointerOf_is v

/-! ## The theorems -/

/-- What holds of the variables of a group: dictionaries; the copies for conversions do not have the names of variables of the group, and two
copies with the same name are the same. -/
structure Good (consts own call copies : List GVar) : Prop where
  dConsts : IsDict consts
  dOwn : IsDict own
  dCall : IsDict call
  same : ∀ v ∈ copies, ∀ w ∈ copies, v.loc = w.loc → v = w
  apart : ∀ v ∈ copies, ∀ w ∈ own, v.loc ≠ w.loc

theorem find_isSome {d : List GVar} {n : Str} : (find d n).isSome = true ↔ ∃ v ∈ d, v.std = n := by
  simp [find]

theorem nodup_entries {p : GVar → Bool} {own : List GVar} (h : (own.map (·.loc)).Nodup) : (((own.filter p).map entry).map (·.1)).Nodup := by
  rw [List.map_map]
  exact h.sublist ((List.filter_sublist).map _)

/-- The variables of the group, sorted out. -/
def ownColl (own call : List GVar) : Coll where
  alloc := (own.filter isArr).map entry
  opt := (own.filter (isOpt call)).map entry
  scal := (own.filter fun v => v.dims.isEmpty).map entry
  inactive := own.filter (isAbs call)

/-- What `write` has written. -/
theorem write_some {compat : GVar → GVar → Bool} {consts own call copies : List GVar} {o : Written} (hg : Good consts own call copies)
    (h : write compat consts own call copies = some o) :
    ∃ s : Coll,
      (∀ e, e ∈ s.alloc ↔ ∃ v, e = entry v ∧ v.dims ≠ [] ∧ ((v ∈ own ∧ v.optional = false) ∨ v ∈ copies)) ∧
      (∀ e, e ∈ s.opt ↔ ∃ v, e = entry v ∧ v.dims ≠ [] ∧ v ∈ own ∧ v.optional = true ∧ ∃ c ∈ call, c.std = v.std) ∧
      (∀ e, e ∈ s.scal ↔ ∃ v, e = entry v ∧ v.dims = [] ∧ (v ∈ own ∨ v ∈ copies)) ∧
      s.inactive = own.filter (isAbs call) ∧
      (s.alloc.map (·.1)).Nodup ∧ (s.opt.map (·.1)).Nodup ∧ (s.scal.map (·.1)).Nodup ∧
      ((s.alloc ++ s.opt).mapM fun e => (allocShape consts own call e.2.dims).map fun sh => (e.1, sh)) = some o.allocs ∧
      o.decls = s.scal.map (fun e => .scalar e.2 e.2.optional) ++ s.alloc.map (fun e => .array e.2 e.2.optional) ++
          s.opt.map (fun e => .array e.2 e.2.optional) ++ ((call.filter (·.optional) ++ s.inactive).map pointerOf).map .pointer ∧
      o.frees = (s.alloc ++ s.opt).map (·.1) ∧ o.nulls = ((call.filter (·.optional) ++ s.inactive).map pointerOf).map (·.name) := by
  unfold write at h
  simp only [Option.bind_eq_some_iff, Option.map_eq_some_iff] at h
  obtain ⟨s, hs, allocs, ha, rfl⟩ := h
  unfold collect at hs
  rw [collect_own hg.dOwn.2 (by intro v _; simp [has])] at hs
  simp only [Option.map_some, Option.some.injEq, List.nil_append] at hs
  have A : After
      (ownColl own call) s copies := by
    rw [← hs]
    show After _ (copies.foldl addCopy (ownColl own call)) copies
    have := addCopies (s := ownColl own call) (copies := copies) (before := [])
      ⟨by simp, by simp, rfl, rfl, id, id⟩ (by simpa using hg.same) (by
        intro v hv w
        constructor
        · intro hm
          simp only [ownColl, List.mem_map, List.mem_filter, entry, Prod.mk.injEq] at hm
          obtain ⟨x, ⟨hx, _⟩, h1, _⟩ := hm
          exact hg.apart v (by simpa using hv) x hx h1.symm
        · intro hm
          simp only [ownColl, List.mem_map, List.mem_filter, entry, Prod.mk.injEq] at hm
          obtain ⟨x, ⟨hx, _⟩, h1, _⟩ := hm
          exact hg.apart v (by simpa using hv) x hx h1.symm)
    simpa using this
  refine ⟨s, fun e => ?_, fun e => ?_, fun e => ?_, A.inactive, A.nodupA (nodup_entries hg.dOwn.2), ?_, A.nodupS (nodup_entries hg.dOwn.2), ha,
    rfl, rfl, rfl⟩
  · rw [A.alloc]
    simp only [ownColl, List.mem_map, List.mem_filter, isArr, Bool.and_eq_true, Bool.not_eq_eq_eq_not, Bool.not_true, List.isEmpty_eq_false_iff]
    constructor
    · rintro (⟨v, ⟨hv, hd, ho⟩, rfl⟩ | ⟨v, hv, hd, rfl⟩)
      · exact ⟨v, rfl, hd, .inl ⟨hv, ho⟩⟩
      · exact ⟨v, rfl, hd, .inr hv⟩
    · rintro ⟨v, rfl, hd, ⟨hv, ho⟩ | hv⟩
      · exact .inl ⟨v, ⟨hv, hd, ho⟩, rfl⟩
      · exact .inr ⟨v, hv, hd, rfl⟩
  · rw [A.opt]
    simp only [ownColl, List.mem_map, List.mem_filter, isOpt, Bool.and_eq_true, Bool.not_eq_eq_eq_not, Bool.not_true, List.isEmpty_eq_false_iff,
      find_isSome]
    constructor
    · rintro ⟨v, ⟨hv, ⟨hd, ho⟩, hc⟩, rfl⟩
      exact ⟨v, rfl, hd, hv, ho, hc⟩
    · rintro ⟨v, rfl, hd, hv, ho, hc⟩
      exact ⟨v, ⟨hv, ⟨hd, ho⟩, hc⟩, rfl⟩
  · rw [A.scal]
    simp only [ownColl, List.mem_map, List.mem_filter, List.isEmpty_iff]
    constructor
    · rintro (⟨v, ⟨hv, hd⟩, rfl⟩ | ⟨v, hv, hd, rfl⟩)
      · exact ⟨v, rfl, hd, .inl hv⟩
      · exact ⟨v, rfl, hd, .inr hv⟩
    · rintro ⟨v, rfl, hd, hv | hv⟩
      · exact .inl ⟨v, ⟨hv, hd⟩, rfl⟩
      · exact .inr ⟨v, hv, hd, rfl⟩
  · rw [A.opt]
    exact nodup_entries hg.dOwn.2

/-- What is declared: what the variables of the group and the copies need, and a pointer for every optional argument; nothing else. -/
theorem C105_declared {compat : GVar → GVar → Bool} {consts own call copies : List GVar} {o : Written} (hg : Good consts own call copies)
    (h : write compat consts own call copies = some o) (d : Decl) :
    d ∈ o.decls ↔ (∃ v ∈ own, NeedsDecl call v d) ∨ (∃ v ∈ copies, NeedsCopy v d) ∨
      ∃ c ∈ call, c.optional = true ∧ ∃ p, IsPointerOf c p ∧ d = .pointer p := by
  obtain ⟨s, ha, ho, hs, hi, _, _, _, _, hd, _, _⟩ := write_some hg h
  rw [hd, hi]
  simp only [List.mem_append, List.mem_map, ha, ho, hs, List.mem_filter, isAbs, Bool.and_eq_true, Bool.not_eq_eq_eq_not, Bool.not_true,
    List.isEmpty_eq_false_iff]
  have hnone : ∀ v : GVar, (find call v.std).isSome = false ↔ ∀ c ∈ call, c.std ≠ v.std := by
    intro v
    rw [← Bool.not_eq_true, find_isSome]
    simp
  simp only [hnone]
  constructor
  · rintro (((⟨e, ⟨v, rfl, hd, hv | hv⟩, rfl⟩ | ⟨e, ⟨v, rfl, hd, ⟨hv, hn⟩ | hv⟩, rfl⟩) | ⟨e, ⟨v, rfl, hd, hv, hn, hc⟩, rfl⟩) |
      ⟨p, ⟨v, ⟨hv, hn⟩ | ⟨hv, ⟨hd, hn⟩, hc⟩, rfl⟩, rfl⟩)
    · exact .inl ⟨v, hv, .scalar hd⟩
    · exact .inr (.inl ⟨v, hv, .scalar hd⟩)
    · exact .inl ⟨v, hv, .array hd (.inl hn)⟩
    · exact .inr (.inl ⟨v, hv, .array hd⟩)
    · exact .inl ⟨v, hv, .array hd (.inr hc)⟩
    · exact .inr (.inr ⟨v, hv, hn, _, pointerOf_is v, rfl⟩)
    · exact .inl ⟨v, hv, .absent hd hn hc (pointerOf_is v)⟩
  · rintro (⟨v, hv, hn⟩ | ⟨v, hv, hn⟩ | ⟨c, hc, ho, p, hp, rfl⟩)
    · cases hn with
      | scalar hd => exact .inl (.inl (.inl ⟨_, ⟨v, rfl, hd, .inl hv⟩, rfl⟩))
      | array hd ho =>
        cases hopt : v.optional with
        | false => exact .inl (.inl (.inr ⟨_, ⟨v, rfl, hd, .inl ⟨hv, hopt⟩⟩, by simp [entry, hopt]⟩))
        | true =>
          rcases ho with ho | ho
          · rw [hopt] at ho; exact absurd ho (by decide)
          · exact .inl (.inr ⟨_, ⟨v, rfl, hd, hv, hopt, ho⟩, by simp [entry, hopt]⟩)
      | absent hd ho hc hp =>
        rw [isPointerOf_iff] at hp
        exact .inr ⟨_, ⟨v, .inr ⟨hv, ⟨hd, ho⟩, hc⟩, rfl⟩, by rw [hp]⟩
    · cases hn with
      | scalar hd => exact .inl (.inl (.inl ⟨_, ⟨v, rfl, hd, .inr hv⟩, rfl⟩))
      | array hd => exact .inl (.inl (.inr ⟨_, ⟨v, rfl, hd, .inr hv⟩, rfl⟩))
    · rw [isPointerOf_iff] at hp
      exact .inr ⟨_, ⟨c, .inl ⟨hc, ho⟩, rfl⟩, by rw [hp]⟩

/-! ### Allocation -/

theorem dict_inj : ∀ {d : List GVar}, (d.map (·.loc)).Nodup → ∀ {v w}, v ∈ d → w ∈ d → v.loc = w.loc → v = w
  | x :: d, h, v, w, hv, hw, e => by
    simp only [List.map_cons, List.nodup_cons, List.mem_map, not_exists, not_and] at h
    rcases List.mem_cons.1 hv with h1 | h1 <;> rcases List.mem_cons.1 hw with h2 | h2
    · rw [h1, h2]
    · exact absurd (h1 ▸ e.symm) (h.1 w h2)
    · exact absurd (h2 ▸ e) (h.1 v h1)
    · exact dict_inj h.2 h1 h2 e

theorem nodup_of_map {f : α → β} : ∀ {l : List α}, (l.map f).Nodup → l.Nodup
  | [], _ => by simp
  | a :: l, h => by
    simp only [List.map_cons, List.nodup_cons, List.mem_map, not_exists, not_and] at h
    simp only [List.nodup_cons]
    exact ⟨fun ha => h.1 a ha rfl, nodup_of_map h.2⟩


theorem runAllocs_spec : ∀ {l : List (Str × Str)} {h : Heap}, (l.map (·.1)).Nodup → (∀ a ∈ l, h a.1 = none) →
    ∃ h', runAllocs l h = some h' ∧ ∀ n s, h' n = some s ↔ h n = some s ∨ (n, s) ∈ l
  | [], h, _, _ => ⟨h, rfl, by simp⟩
  | a :: l, h, hn, hh => by
    simp only [List.map_cons, List.nodup_cons, List.mem_map, not_exists, not_and] at hn
    have h0 := hh a (.head _)
    obtain ⟨h', e, hs⟩ := runAllocs_spec (l := l) (h := fun n => if n = a.1 then some a.2 else h n) hn.2 (by
      intro b hb
      have : b.1 ≠ a.1 := fun e => hn.1 b hb e
      simp only [this, ↓reduceIte]
      exact hh b (.tail _ hb))
    refine ⟨h', ?_, fun n s => ?_⟩
    · unfold runAllocs at e ⊢
      rw [List.foldlM_cons]
      simp only [h0, Option.isSome_none, Bool.false_eq_true, ↓reduceIte, Option.bind_eq_bind, Option.bind_some]
      exact e
    · rw [hs]
      simp only [List.mem_cons]
      by_cases hna : n = a.1
      · subst hna
        simp only [↓reduceIte, Option.some.injEq, h0, reduceCtorEq, false_or]
        constructor
        · rintro (rfl | hm)
          · exact .inl rfl
          · exact absurd rfl (hn.1 (a.1, s) hm)
        · rintro (hm | hm)
          · left; rw [← hm]
          · exact .inr hm
      · simp only [hna, ↓reduceIte]
        constructor
        · rintro (x | x)
          · exact .inl x
          · exact .inr (.inr x)
        · rintro (x | x | x)
          · exact .inl x
          · exact absurd (congrArg Prod.fst x) hna
          · exact .inr x

theorem runFrees_spec : ∀ {l : List Str} {h : Heap} (n : Str), runFrees l h n = if n ∈ l then none else h n
  | [], h, n => by simp [runFrees]
  | a :: l, h, n => by
    have ih := runFrees_spec (l := l) (h := fun n => if n = a then none else h n) n
    unfold runFrees at ih ⊢
    rw [List.foldl_cons, ih]
    by_cases h1 : n ∈ l <;> by_cases h2 : n = a <;> simp [h1, h2]

theorem allocs_spec {f : GVar → Option Str} : ∀ {l : List (Str × GVar)} {m : List (Str × Str)},
    (l.mapM fun e => (f e.2).map fun sh => (e.1, sh)) = some m →
    m.map (·.1) = l.map (·.1) ∧ ∀ n s, (n, s) ∈ m ↔ ∃ e ∈ l, e.1 = n ∧ f e.2 = some s
  | [], m, h => by
    simp at h; subst h; simp
  | e :: l, m, h => by
    rw [List.mapM_cons] at h
    simp only [Option.bind_eq_bind, Option.bind_eq_some_iff, Option.pure_def, Option.some.injEq, Option.map_eq_some_iff] at h
    obtain ⟨b, ⟨sh, hsh, rfl⟩, k, hk, rfl⟩ := h
    obtain ⟨h1, h2⟩ := allocs_spec hk
    refine ⟨by simp [h1], fun n s => ?_⟩
    simp only [List.mem_cons, h2, Prod.mk.injEq, exists_eq_or_imp]
    constructor
    · rintro (⟨rfl, rfl⟩ | x)
      · exact .inl ⟨rfl, hsh⟩
      · exact .inr x
    · rintro (⟨rfl, x⟩ | x)
      · rw [hsh] at x
        exact .inl ⟨rfl, (Option.some.inj x).symm⟩
      · exact .inr x

/-- The `allocate` statements succeed, and then exactly the declared arrays are allocated, with the bounds of their dimensions; whatever the calls
do with them, after the `deallocate` statements none is. -/
theorem C105_allocated {compat : GVar → GVar → Bool} {consts own call copies : List GVar} {o : Written} (hg : Good consts own call copies)
    (h : write compat consts own call copies = some o) :
    ∃ heap, runAllocs o.allocs (fun _ => none) = some heap ∧
      (∀ n s, heap n = some s ↔ ∃ v t, Decl.array v t ∈ o.decls ∧ v.loc = n ∧ ShapeIs consts own call v.dims s) ∧
      (∀ v t, Decl.array v t ∈ o.decls → ∃ s, heap v.loc = some s) ∧
      ∀ after : Heap, (∀ n, after n ≠ none → ∃ v t, Decl.array v t ∈ o.decls ∧ v.loc = n) → ∀ n, runFrees o.frees after n = none := by
  obtain ⟨s, ha, ho, hs, hi, na, no, _, hm, hd, hf, _⟩ := write_some hg h
  obtain ⟨hk, hmem⟩ := allocs_spec (f := fun v => allocShape consts own call v.dims) hm
  have arr : ∀ v t, Decl.array v t ∈ o.decls ↔ (entry v ∈ s.alloc ++ s.opt) ∧ t = v.optional := by
    intro v t
    rw [hd]
    simp only [List.mem_append, List.mem_map, reduceCtorEq, and_false, exists_false, false_or, or_false, Decl.array.injEq]
    constructor
    · rintro (⟨e, he, rfl, rfl⟩ | ⟨e, he, rfl, rfl⟩)
      · obtain ⟨v, rfl, _⟩ := (ha e).1 he; exact ⟨.inl he, rfl⟩
      · obtain ⟨v, rfl, _⟩ := (ho e).1 he; exact ⟨.inr he, rfl⟩
    · rintro ⟨he | he, rfl⟩
      · exact .inl ⟨_, he, rfl, rfl⟩
      · exact .inr ⟨_, he, rfl, rfl⟩
  have form : ∀ e ∈ s.alloc ++ s.opt, ∃ v, e = entry v ∧ v.dims ≠ [] := by
    intro e he
    rcases List.mem_append.1 he with he | he
    · obtain ⟨v, rfl, hd, _⟩ := (ha e).1 he; exact ⟨v, rfl, hd⟩
    · obtain ⟨v, rfl, hd, _⟩ := (ho e).1 he; exact ⟨v, rfl, hd⟩
  have nod : ((s.alloc ++ s.opt).map (·.1)).Nodup := by
    rw [List.map_append, List.nodup_append]
    refine ⟨na, no, ?_⟩
    intro x hx y hy hxy
    simp only [List.mem_map] at hx hy
    obtain ⟨e, he, rfl⟩ := hx
    obtain ⟨f, hf, rfl⟩ := hy
    obtain ⟨v, rfl, _, hv⟩ := (ha e).1 he
    obtain ⟨w, rfl, _, hw, hwo, _⟩ := (ho f).1 hf
    simp only [entry] at hxy
    rcases hv with ⟨hv, hvo⟩ | hv
    · have := dict_inj hg.dOwn.2 hv hw hxy
      subst this
      rw [hvo] at hwo
      exact absurd hwo (by decide)
    · exact hg.apart v hv w hw hxy
  obtain ⟨heap, he, hh⟩ := runAllocs_spec (l := o.allocs) (h := fun _ => none) (by rw [hk]; exact nod) (by simp)
  have spec : ∀ n s, heap n = some s ↔ ∃ v t, Decl.array v t ∈ o.decls ∧ v.loc = n ∧ ShapeIs consts own call v.dims s := by
    intro n s
    rw [hh, hmem]
    simp only [reduceCtorEq, false_or]
    constructor
    · rintro ⟨e, he, rfl, hsh⟩
      obtain ⟨v, rfl, hvd⟩ := form e he
      exact ⟨v, _, (arr v _).2 ⟨he, rfl⟩, rfl, (allocShape_iff hg.dConsts hg.dOwn hg.dCall hvd).1 hsh⟩
    · rintro ⟨v, t, hv, rfl, hsh⟩
      have hv := ((arr v t).1 hv).1
      obtain ⟨w, hw, hvd⟩ := form _ hv
      simp only [entry, Prod.mk.injEq] at hw
      obtain ⟨_, rfl⟩ := hw
      exact ⟨_, hv, rfl, (allocShape_iff hg.dConsts hg.dOwn hg.dCall hvd).2 hsh⟩
  refine ⟨heap, he, spec, fun v t hv => ?_, fun after hafter n => ?_⟩
  · have hv' := ((arr v t).1 hv).1
    have : v.loc ∈ o.allocs.map (·.1) := by rw [hk]; exact List.mem_map.2 ⟨_, hv', rfl⟩
    obtain ⟨⟨n, s⟩, hns, e⟩ := List.mem_map.1 this
    simp only at e; subst e
    exact ⟨s, (hh _ _).2 (.inr hns)⟩
  · rw [runFrees_spec]
    split
    · rfl
    · rename_i hn
      by_contra hne
      obtain ⟨v, t, hv, rfl⟩ := hafter n hne
      apply hn
      rw [hf]
      exact List.mem_map.2 ⟨_, ((arr v t).1 hv).1, rfl⟩

/-- Every pointer is nullified, and nothing else. -/
theorem C105_nullified {compat : GVar → GVar → Bool} {consts own call copies : List GVar} {o : Written} (hg : Good consts own call copies)
    (h : write compat consts own call copies = some o) (n : Str) : n ∈ o.nulls ↔ ∃ p, Decl.pointer p ∈ o.decls ∧ p.name = n := by
  obtain ⟨s, _, _, _, _, _, _, _, _, hd, _, hn⟩ := write_some hg h
  rw [hd, hn]
  simp only [List.mem_append, List.mem_map, reduceCtorEq, and_false, exists_false, false_or, Decl.pointer.injEq]
  constructor
  · rintro ⟨p, hp, rfl⟩; exact ⟨p, ⟨p, hp, rfl⟩, rfl⟩
  · rintro ⟨p, ⟨q, hq, rfl⟩, rfl⟩; exact ⟨_, hq, rfl⟩

/-! ### Names -/

theorem nodup_map_inj {f : α → β} : ∀ {l : List α}, l.Nodup → (∀ a ∈ l, ∀ b ∈ l, f a = f b → a = b) → (l.map f).Nodup
  | [], _, _ => by simp
  | a :: l, h, hf => by
    simp only [List.nodup_cons] at h
    simp only [List.map_cons, List.nodup_cons, List.mem_map, not_exists, not_and]
    refine ⟨fun b hb e => ?_, nodup_map_inj h.2 fun a ha b hb => hf a (.tail _ ha) b (.tail _ hb)⟩
    have := hf b (.tail _ hb) a (.head _) e
    exact h.1 (this ▸ hb)

/-- No name is declared twice, if no name of a variable is that of another one with `_ptr`, and the variables of the group and its arguments have
different names. -/
theorem C105_names {compat : GVar → GVar → Bool} {consts own call copies : List GVar} {o : Written} (hg : Good consts own call copies)
    (hp : ∀ v, (v ∈ own ∨ v ∈ copies) → ∀ w, (w ∈ own ∨ w ∈ call) → v.loc ≠ w.loc ++ "_ptr".toList)
    (hc : ∀ v ∈ own, ∀ c ∈ call, v.loc ≠ c.loc) (h : write compat consts own call copies = some o) : (o.decls.map Decl.name).Nodup := by
  obtain ⟨s, ha, ho, hs, hi, na, no, ns, _, hd, _, _⟩ := write_some hg h
  have keys : ∀ {l : List (Str × GVar)} {f : GVar → Decl}, (∀ v, (f v).name = v.loc) → (∀ e ∈ l, ∃ v, e = entry v) →
      (l.map fun e => f e.2).map Decl.name = l.map (·.1) := by
    intro l f hf hl
    rw [List.map_map]
    apply List.map_congr_left
    intro e he
    obtain ⟨v, rfl⟩ := hl e he
    simp [hf, entry]
  rw [hd, hi]
  simp only [List.map_append]
  rw [keys (f := fun v => .scalar v v.optional) (fun _ => rfl) fun e he => by obtain ⟨v, rfl, _⟩ := (hs e).1 he; exact ⟨v, rfl⟩,
    keys (l := s.alloc) (f := fun v => .array v v.optional) (fun _ => rfl) fun e he => by obtain ⟨v, rfl, _⟩ := (ha e).1 he; exact ⟨v, rfl⟩,
    keys (l := s.opt) (f := fun v => .array v v.optional) (fun _ => rfl) fun e he => by obtain ⟨v, rfl, _⟩ := (ho e).1 he; exact ⟨v, rfl⟩]
  have clash : ∀ v w, (v ∈ own ∨ v ∈ copies) → (w ∈ own ∨ w ∈ copies) → v.loc = w.loc → v = w := by
    rintro v w (hv | hv) (hw | hw) e
    · exact dict_inj hg.dOwn.2 hv hw e
    · exact absurd e.symm (hg.apart w hw v hv)
    · exact absurd e (hg.apart v hv w hw)
    · exact hg.same v hv w hw e
  have mA : ∀ n, n ∈ s.alloc.map (·.1) → ∃ v, v.loc = n ∧ v.dims ≠ [] ∧ (v ∈ own ∨ v ∈ copies) ∧ (v ∈ own → v.optional = false) := by
    intro n hn
    obtain ⟨e, he, rfl⟩ := List.mem_map.1 hn
    obtain ⟨v, rfl, hd, hv⟩ := (ha e).1 he
    rcases hv with ⟨hv, hvo⟩ | hv
    · exact ⟨v, rfl, hd, .inl hv, fun _ => hvo⟩
    · exact ⟨v, rfl, hd, .inr hv, fun ho => absurd rfl (hg.apart v hv v ho)⟩
  have mO : ∀ n, n ∈ s.opt.map (·.1) → ∃ v, v.loc = n ∧ v.dims ≠ [] ∧ v ∈ own ∧ v.optional = true := by
    intro n hn
    obtain ⟨e, he, rfl⟩ := List.mem_map.1 hn
    obtain ⟨v, rfl, hd, hv, hvo, _⟩ := (ho e).1 he
    exact ⟨v, rfl, hd, hv, hvo⟩
  have mS : ∀ n, n ∈ s.scal.map (·.1) → ∃ v, v.loc = n ∧ v.dims = [] ∧ (v ∈ own ∨ v ∈ copies) := by
    intro n hn
    obtain ⟨e, he, rfl⟩ := List.mem_map.1 hn
    obtain ⟨v, rfl, hd, hv⟩ := (hs e).1 he
    exact ⟨v, rfl, hd, hv⟩
  have mP : ∀ n, n ∈ ((call.filter (·.optional)).map pointerOf).map (fun p => (Decl.pointer p).name) ++
      ((own.filter (isAbs call)).map pointerOf).map (fun p => (Decl.pointer p).name) →
      ∃ w, (w ∈ own ∨ w ∈ call) ∧ n = w.loc ++ "_ptr".toList := by
    intro n hn
    simp only [List.mem_append, List.mem_map, List.mem_filter] at hn
    rcases hn with ⟨p, ⟨w, ⟨hw, _⟩, rfl⟩, rfl⟩ | ⟨p, ⟨w, ⟨hw, _⟩, rfl⟩, rfl⟩
    · exact ⟨w, .inr hw, rfl⟩
    · exact ⟨w, .inl hw, rfl⟩
  have nP : (((call.filter (·.optional)).map pointerOf).map (fun p => (Decl.pointer p).name) ++
      ((own.filter (isAbs call)).map pointerOf).map (fun p => (Decl.pointer p).name)).Nodup := by
    have one : ∀ {d : List GVar} {q : GVar → Bool}, (d.map (·.loc)).Nodup →
        (((d.filter q).map pointerOf).map (fun p => (Decl.pointer p).name)).Nodup := by
      intro d q hd
      rw [List.map_map]
      apply nodup_map_inj
      · exact (nodup_of_map hd).sublist List.filter_sublist
      · intro a ha b hb e
        exact dict_inj hd (List.mem_filter.1 ha).1 (List.mem_filter.1 hb).1 (List.append_cancel_right (cs := b.loc) (bs := "_ptr".toList) e)
    rw [List.nodup_append]
    refine ⟨one hg.dCall.2, one hg.dOwn.2, ?_⟩
    intro x hx y hy e
    simp only [List.mem_map, List.mem_filter] at hx hy
    obtain ⟨p, ⟨c, ⟨hcm, _⟩, rfl⟩, rfl⟩ := hx
    obtain ⟨q, ⟨v, ⟨hv, _⟩, rfl⟩, rfl⟩ := hy
    exact hc v hv c hcm (List.append_cancel_right (bs := "_ptr".toList) e).symm
  have eP : ∀ l : List Ptr, (l.map Decl.pointer).map Decl.name = l.map (fun p => (Decl.pointer p).name) := by
    intro l; rw [List.map_map]; rfl
  rw [eP, eP]
  rw [List.nodup_append, List.nodup_append, List.nodup_append]
  refine ⟨⟨⟨ns, na, ?_⟩, no, ?_⟩, nP, ?_⟩
  · intro x hx y hy e
    obtain ⟨v, rfl, hvd, hv⟩ := mS x hx
    obtain ⟨w, rfl, hwd, hw, _⟩ := mA y hy
    exact hwd (clash v w hv hw e ▸ hvd)
  · intro x hx y hy e
    obtain ⟨w, rfl, hwd, hw, hwo⟩ := mO y hy
    rcases List.mem_append.1 hx with hx | hx
    · obtain ⟨v, rfl, hvd, hv⟩ := mS x hx
      exact hwd (clash v w hv (.inl hw) e ▸ hvd)
    · obtain ⟨v, rfl, hvd, hv, hvo⟩ := mA x hx
      have := clash v w hv (.inl hw) e
      subst this
      rw [hvo hw] at hwo
      exact absurd hwo (by decide)
  · intro x hx y hy e
    obtain ⟨w, hw, rfl⟩ := mP y hy
    rcases List.mem_append.1 hx with hx | hx
    · rcases List.mem_append.1 hx with hx | hx
      · obtain ⟨v, rfl, _, hv⟩ := mS x hx
        exact hp v hv w hw e
      · obtain ⟨v, rfl, _, hv, _⟩ := mA x hx
        exact hp v hv w hw e
    · obtain ⟨v, rfl, _, hv, _⟩ := mO x hx
      exact hp v (.inl hv) w hw e

/-! ### Success -/

/-- The subroutine is written if the bounds of all arrays are known. -/
theorem C105_complete {compat : GVar → GVar → Bool} {consts own call copies : List GVar} (hg : Good consts own call copies)
    (hs : ∀ v, (v ∈ own ∨ v ∈ copies) → v.dims ≠ [] → ∃ s, ShapeIs consts own call v.dims s) :
    ∃ o, write compat consts own call copies = some o := by
  have all : ∀ {l : List (Str × GVar)}, (∀ e ∈ l, ∃ s, allocShape consts own call e.2.dims = some s) →
      ∃ m, (l.mapM fun e => (allocShape consts own call e.2.dims).map fun sh => (e.1, sh)) = some m := by
    intro l h
    induction l with
    | nil => exact ⟨[], rfl⟩
    | cons e l ih =>
      obtain ⟨s, hs⟩ := h e (.head _)
      obtain ⟨m, hm⟩ := ih fun e he => h e (.tail _ he)
      exact ⟨_, by rw [List.mapM_cons, hs, hm]; rfl⟩
  have e0 : own.foldlM (collectOne compat call) ⟨[], [], [], []⟩ = some (ownColl own call) :=
    (collect_own hg.dOwn.2 (by intro v _; simp [has])).trans (by simp [ownColl])
  unfold write collect
  rw [e0]
  simp only [Option.map_some, Option.bind_some]
  obtain ⟨m, hm⟩ := all (l := (copies.foldl addCopy (ownColl own call)).alloc ++ (copies.foldl addCopy (ownColl own call)).opt) (by
    have A := addCopies (s := ownColl own call) (copies := copies) (before := [])
      ⟨by simp, by simp, rfl, rfl, id, id⟩ (by simpa using hg.same) (by
        intro v hv w
        constructor
        · intro hm
          simp only [ownColl, List.mem_map, List.mem_filter, entry, Prod.mk.injEq] at hm
          obtain ⟨x, ⟨hx, _⟩, h1, _⟩ := hm
          exact hg.apart v (by simpa using hv) x hx h1.symm
        · intro hm
          simp only [ownColl, List.mem_map, List.mem_filter, entry, Prod.mk.injEq] at hm
          obtain ⟨x, ⟨hx, _⟩, h1, _⟩ := hm
          exact hg.apart v (by simpa using hv) x hx h1.symm)
    intro e he
    rcases List.mem_append.1 he with he | he
    · rcases (A.alloc e).1 he with he | ⟨v, hv, hd, rfl⟩
      · simp only [ownColl, List.mem_map, List.mem_filter, isArr, Bool.and_eq_true, Bool.not_eq_eq_eq_not, Bool.not_true,
          List.isEmpty_eq_false_iff] at he
        obtain ⟨v, ⟨hv, hd, _⟩, rfl⟩ := he
        obtain ⟨s, h⟩ := hs v (.inl hv) hd
        exact ⟨s, (allocShape_iff hg.dConsts hg.dOwn hg.dCall hd).2 h⟩
      · obtain ⟨s, h⟩ := hs v (.inr (by simpa using hv)) hd
        exact ⟨s, (allocShape_iff hg.dConsts hg.dOwn hg.dCall hd).2 h⟩
    · rw [A.opt] at he
      simp only [ownColl, List.mem_map, List.mem_filter, isOpt, Bool.and_eq_true, Bool.not_eq_eq_eq_not, Bool.not_true,
        List.isEmpty_eq_false_iff] at he
      obtain ⟨v, ⟨hv, ⟨hd, _⟩, _⟩, rfl⟩ := he
      obtain ⟨s, h⟩ := hs v (.inl hv) hd
      exact ⟨s, (allocShape_iff hg.dConsts hg.dOwn hg.dCall hd).2 h⟩)
  exact ⟨_, by rw [hm]; rfl⟩

/-! ### What the calls use -/

/-- The variable an argument of a scheme stands for: that of the group, or else the argument of the group, with its standard name. -/
def StandsFor (own call : List GVar) (n : Str) (v : GVar) : Prop :=
  v.std = n ∧ (v ∈ own ∨ ((∀ w ∈ own, w.std ≠ n) ∧ v ∈ call))

/-- What is passed to a scheme without a conversion is a declared local variable with the type and rank of the variable, or a dummy argument that
is not optional, if optional variables have the same local name in the scheme as in the group, and the optional variables of the group are arrays that
the host does not pass (missing: `C105_pointer_violated`, `C105_scalar_violated`; for copies see `C105_copy_violated`). -/
theorem C105_partial {compat : GVar → GVar → Bool} {consts own call copies suite : List GVar} {o : Written} (hg : Good consts own call copies)
    (h : write compat consts own call copies = some o) {a : Arg} {v : GVar} (hv : StandsFor own call a.std v) (hconv : a.converted = false)
    (hname : v.optional = true → a.dummy = v.loc)
    (hown : v ∈ own → v.optional = true → v.dims ≠ [] ∧ ∀ c ∈ call, c.std ≠ v.std) :
    ∃ n, actual own call suite a = some n ∧
      ((v ∈ call ∧ v.optional = false ∧ n = v.loc) ∨
        ∃ d ∈ o.decls, d.name = n ∧ ((v ∈ own ∧ NeedsDecl call v d) ∨ ∃ p, IsPointerOf v p ∧ d = .pointer p)) := by
  obtain ⟨hstd, hv⟩ := hv
  have hact : actual own call suite a = some (if v.optional then a.dummy ++ "_ptr".toList else v.loc) := by
    unfold actual
    rcases hv with hv | ⟨hn, hv⟩
    · rw [(find_some hg.dOwn.1).2 ⟨hv, hstd⟩]
      simp [hconv]
    · rw [find_none.2 hn, (find_some hg.dCall.1).2 ⟨hv, hstd⟩]
      simp [hconv]
  refine ⟨_, hact, ?_⟩
  have decl := C105_declared hg h
  cases ho : v.optional with
  | false =>
    simp only [Bool.false_eq_true, ↓reduceIte]
    rcases hv with hv | ⟨_, hv⟩
    · right
      by_cases hd : v.dims = []
      · exact ⟨_, (decl _).2 (.inl ⟨v, hv, .scalar hd⟩), rfl, .inl ⟨hv, .scalar hd⟩⟩
      · exact ⟨_, (decl _).2 (.inl ⟨v, hv, .array hd (.inl ho)⟩), rfl, .inl ⟨hv, .array hd (.inl ho)⟩⟩
    · exact .inl ⟨hv, by simp⟩
  | true =>
    simp only [↓reduceIte, hname ho]
    right
    have hp := pointerOf_is v
    rcases hv with hv | ⟨_, hv⟩
    · obtain ⟨hd, hc⟩ := hown hv ho
      exact ⟨_, (decl _).2 (.inl ⟨v, hv, .absent hd ho hc hp⟩), rfl, .inr ⟨_, hp, rfl⟩⟩
    · exact ⟨_, (decl _).2 (.inr (.inr ⟨v, hv, ho, _, hp, rfl⟩)), rfl, .inr ⟨_, hp, rfl⟩⟩

/-- The copy for a conversion is declared. -/
theorem C105_copies {compat : GVar → GVar → Bool} {consts own call copies suite : List GVar} {o : Written} (hg : Good consts own call copies)
    (h : write compat consts own call copies = some o) {a : Arg} {v t : GVar} (hv : StandsFor own call a.std v) (hconv : a.converted = true)
    (ht : t ∈ copies) (hname : t.loc = a.dummy ++ "_local".toList) :
    ∃ n, actual own call suite a = some n ∧ ∃ d ∈ o.decls, d.name = n ∧ NeedsCopy t d := by
  obtain ⟨hstd, hv⟩ := hv
  have hact : actual own call suite a = some (a.dummy ++ "_local".toList) := by
    unfold actual
    rcases hv with hv | ⟨hn, hv⟩
    · rw [(find_some hg.dOwn.1).2 ⟨hv, hstd⟩]
      simp [hconv]
    · rw [find_none.2 hn, (find_some hg.dCall.1).2 ⟨hv, hstd⟩]
      simp [hconv]
  refine ⟨_, hact, ?_⟩
  by_cases hd : t.dims = []
  · exact ⟨_, (C105_declared hg h _).2 (.inr (.inl ⟨t, ht, .scalar hd⟩)), hname, .scalar hd⟩
  · exact ⟨_, (C105_declared hg h _).2 (.inr (.inl ⟨t, ht, .array hd⟩)), hname, .array hd⟩

/-! ### Concrete cases -/

/-- A variable for the examples. -/
def var (std loc : String) (dims : List String) (optional : Bool) : GVar :=
  ⟨std.toList, loc.toList, "real".toList, "kind_phys".toList, false, dims.map String.toList, optional⟩

/-- The constant one, the variables of a group and its arguments, for the examples. -/
def exConsts : List GVar := [var "ccpp_constant_one" "1" [] false]
/-- See `exConsts`. -/
def exOwn : List GVar := [var "tendency" "dt" ["ccpp_constant_one:columns"] false, var "flag" "lflag" [] false,
  var "tracer" "q" ["columns"] true]
/-- See `exConsts`. -/
def exCall : List GVar := [var "columns" "ncol" [] false, var "temperature" "t" ["columns"] true]
/-- See `exConsts`. -/
def exCopies : List GVar := [var "pressure" "p_local" ["columns"] false]

/-- The hypotheses of the theorems hold of a group with an array, a scalar, an absent optional array, an optional argument and a copy. -/
example : Good exConsts exOwn exCall exCopies where
  dConsts := by unfold IsDict; decide +kernel
  dOwn := by unfold IsDict; decide +kernel
  dCall := by unfold IsDict; decide +kernel
  same := by decide +kernel
  apart := by decide +kernel

/-- What is written for it. -/
example : (write (fun _ _ => true) exConsts exOwn exCall exCopies).map (fun o => (o.allocs, o.nulls, o.frees)) =
    some ([("dt".toList, "1:ncol".toList), ("p_local".toList, "ncol".toList)], ["t_ptr".toList, "q_ptr".toList],
      ["dt".toList, "p_local".toList]) := by decide +kernel

/-- An optional variable that has another name in a scheme: the pointer that is passed is not declared. -/
theorem C105_pointer_violated : actual exOwn exCall [] ⟨"temperature".toList, "temp".toList, false⟩ = some "temp_ptr".toList ∧
    (write (fun _ _ => true) exConsts exOwn exCall exCopies).map (fun o => o.decls.map Decl.name) =
      some ["lflag".toList, "dt".toList, "p_local".toList, "t_ptr".toList, "q_ptr".toList] := by decide +kernel

/-- An optional scalar that the host does not pass: a pointer is passed that is not declared. -/
theorem C105_scalar_violated : actual [var "factor" "f" [] true] [] [] ⟨"factor".toList, "f".toList, false⟩ = some "f_ptr".toList ∧
    (write (fun _ _ => true) [] [var "factor" "f" [] true] [] []).map (fun o => o.decls.map Decl.name) = some ["f".toList] := by decide +kernel

/-- Two schemes call different variables `x`, and both are converted: the copy is declared once, with the rank of the second one. -/
theorem C105_copy_violated :
    (write (fun _ _ => true) exConsts [] exCall [var "u" "x_local" ["columns"] false, var "v" "x_local" ["columns", "columns"] false]).map
      (fun o => o.decls.filter fun d => d.name == "x_local".toList) =
      some [.array (var "v" "x_local" ["columns", "columns"] false) false] := by decide +kernel

end Ccpp.GL
