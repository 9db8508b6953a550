import Verif.Props.HostModelAccept
/-!
# C67: references and paths
-/
namespace Ccpp.HM

def toRef : List V → Ref
  | [] => .var (last [])
  | [v] => .var v
  | v :: w :: p => compRef v (w :: p)

theorem toRef_leaf (p : List V) : (toRef p).leaf = last p := by
  match p with
  | [] => rfl
  | [_] => rfl
  | _ :: _ :: _ => rfl

theorem toRef_own (p : List V) : (toRef p).own = root p := by
  match p with
  | [] => rfl
  | [_] => rfl
  | _ :: _ :: _ => rfl

theorem toRef_isVar (p : List V) : (toRef p).isVar = decide (p.length < 2) := by
  match p with
  | [] => rfl
  | [_] => rfl
  | _ :: _ :: p =>
    show false = _
    rw [eq_comm, decide_eq_false_iff_not]
    simp

theorem toRef_cons {v : V} {p : List V} (h : p ≠ []) : toRef (v :: p) = compRef v p := by
  cases p with
  | nil => exact absurd rfl h
  | cons w p => rfl

theorem toRef_map {v : V} {qs : List (List V)} (h : [] ∉ qs) : (qs.map (v :: ·)).map toRef = qs.map (compRef v) := by
  rw [List.map_map]
  apply List.map_congr_left
  intro q hq
  exact toRef_cons fun hh => h (hh ▸ hq)

/-- The type of a variable is known. -/
def Known (lib : Lib) (v : V) : Prop := v.ddt = true → ∃ fs, fieldsOf lib v.type = some fs

theorem refsOf_paths {lib : Lib} {n : Nat} {v : V} (hk : Known lib v) :
    refsOf lib n v = (subPaths (pathsN lib n) lib v).map fun (qs : List (List V)) => Ref.var v :: qs.map (compRef v) := by
  unfold refsOf subPaths
  cases hd : v.ddt with
  | false => rfl
  | true =>
    obtain ⟨fs, hf⟩ := hk hd
    rw [hf]
    rfl

theorem sub_ne {lib : Lib} {n : Nat} {v : V} {qs : List (List V)} (h : (subPaths (pathsN lib n) lib v) = some qs) : [] ∉ qs := by
  unfold subPaths at h
  split at h
  · exact pathsN_ne h
  · injection h with h; subst h; simp

theorem refsAll_known {lib : Lib} {n : Nat} {vs : List V} {rs : List Ref} (h : refsAll lib n vs = some rs) :
    ∀ v ∈ vs, Known lib v := by
  induction vs generalizing rs with
  | nil => intro v hv; cases hv
  | cons w vs ih =>
    rw [refsAll, Option.bind_eq_some_iff] at h
    obtain ⟨a, h1, h2⟩ := h
    rw [Option.map_eq_some_iff] at h2
    obtain ⟨b, h2, _⟩ := h2
    intro v hv
    rcases List.mem_cons.1 hv with rfl | hv
    · intro hd
      unfold refsOf at h1
      rw [if_pos hd, Option.bind_eq_some_iff] at h1
      obtain ⟨fs, h1, _⟩ := h1
      exact ⟨fs, h1⟩
    · exact ih h2 v hv

/-- The references of variables and those of components. -/
theorem refsAll_paths {lib : Lib} {n : Nat} {vs : List V} (hk : ∀ v ∈ vs, Known lib v) (rs : List Ref)
    (h : refsAll lib n vs = some rs) : ∃ ps, pathsN lib (n + 1) vs = some ps ∧
      rs.filter (·.isVar) = vs.map .var ∧ (rs.filter fun r => !r.isVar) = (ps.filter fun p => 2 ≤ p.length).map toRef ∧
      rs.Perm (ps.map toRef) := by
  induction vs generalizing rs with
  | nil =>
    injection h with h
    subst h
    exact ⟨[], rfl, rfl, rfl, .refl _⟩
  | cons v vs ih =>
    rw [refsAll, Option.bind_eq_some_iff] at h
    obtain ⟨a, h1, h2⟩ := h
    rw [Option.map_eq_some_iff] at h2
    obtain ⟨b, h2, rfl⟩ := h2
    obtain ⟨ps, p1, p2, p3, p4⟩ := ih (fun v hv => hk v (List.mem_cons_of_mem _ hv)) b h2
    rw [refsOf_paths (hk v (List.mem_cons_self ..)), Option.map_eq_some_iff] at h1
    obtain ⟨qs, h1, rfl⟩ := h1
    have hne := sub_ne h1
    refine ⟨qs.map (v :: ·) ++ [v] :: ps, ?_, ?_, ?_, ?_⟩
    · show pathsLoop (pathsN lib n) lib (v :: vs) = _
      rw [pathsLoop, h1]
      show Option.map _ (pathsN lib (n + 1) vs) = _
      rw [p1]
      rfl
    · rw [List.filter_append, p2, List.filter_cons]
      have : (qs.map (compRef v)).filter (·.isVar) = [] := by
        rw [List.filter_eq_nil_iff]
        intro r hr
        obtain ⟨q, _, rfl⟩ := List.mem_map.1 hr
        simp [compRef, Ref.isVar]
      rw [this]
      rfl
    · have e1 : (qs.map (compRef v)).filter (fun r => !r.isVar) = qs.map (compRef v) := by
        rw [List.filter_eq_self]
        intro r hr
        obtain ⟨q, _, rfl⟩ := List.mem_map.1 hr
        rfl
      have e2 : (qs.map (v :: ·)).filter (fun p => decide (2 ≤ p.length)) = qs.map (v :: ·) := by
        rw [List.filter_eq_self]
        intro r hr
        obtain ⟨q, hq, rfl⟩ := List.mem_map.1 hr
        cases q with
        | nil => exact absurd hq hne
        | cons x q => simp
      rw [List.filter_append, p3, List.filter_append, e2, List.filter_cons, e1, List.filter_cons, List.map_append, toRef_map hne]
      rfl
    · rw [List.map_append, toRef_map hne]
      show (Ref.var v :: qs.map (compRef v) ++ b).Perm (qs.map (compRef v) ++ Ref.var v :: ps.map toRef)
      rw [List.cons_append]
      exact (List.Perm.cons _ (p4.append_left _)).trans List.perm_middle.symm

theorem refsAll_of_paths {lib : Lib} {n : Nat} {vs : List V} (hk : ∀ v ∈ vs, Known lib v) {ps : List (List V)}
    (h : pathsN lib (n + 1) vs = some ps) : ∃ rs, refsAll lib n vs = some rs := by
  induction vs generalizing ps with
  | nil => exact ⟨[], rfl⟩
  | cons v vs ih =>
    have h : pathsLoop (pathsN lib n) lib (v :: vs) = some ps := h
    rw [pathsLoop, Option.bind_eq_some_iff] at h
    obtain ⟨qs, h1, h2⟩ := h
    rw [Option.map_eq_some_iff] at h2
    obtain ⟨ps', h2, rfl⟩ := h2
    obtain ⟨rs, h3⟩ := ih (fun v hv => hk v (List.mem_cons_of_mem _ hv)) h2
    rw [refsAll, refsOf_paths (hk v (List.mem_cons_self ..)), h1, h3]
    exact ⟨_, rfl⟩

theorem refsAll_append (lib : Lib) (n : Nat) (a b : List V) : refsAll lib n (a ++ b) =
    (refsAll lib n a).bind fun x => (refsAll lib n b).map (x ++ ·) := by
  induction a with
  | nil => simp [refsAll]
  | cons v a ih =>
    rw [List.cons_append, refsAll, refsAll, ih]
    cases refsOf lib n v with
    | none => rfl
    | some y =>
      cases refsAll lib n a with
      | none => rfl
      | some x =>
        cases refsAll lib n b with
        | none => rfl
        | some z => simp

theorem pathsLoop_mono {lib : Lib} {f g : List V → Option (List (List V))} (hfg : ∀ vs ps, f vs = some ps → g vs = some ps)
    {vs : List V} {ps : List (List V)} (h : pathsLoop f lib vs = some ps) : pathsLoop g lib vs = some ps := by
  induction vs generalizing ps with
  | nil => exact h
  | cons v vs ih =>
    rw [pathsLoop, Option.bind_eq_some_iff] at h
    obtain ⟨qs, h1, h2⟩ := h
    rw [Option.map_eq_some_iff] at h2
    obtain ⟨ps', h2, rfl⟩ := h2
    rw [pathsLoop, ih h2]
    unfold subPaths at h1 ⊢
    cases hd : v.ddt with
    | false =>
      rw [hd] at h1
      injection h1 with h1
      subst h1
      rfl
    | true =>
      rw [hd] at h1
      cases hf : fieldsOf lib v.type with
      | none =>
        rw [hf] at h1
        injection h1 with h1
        subst h1
        rfl
      | some sub =>
        rw [hf] at h1
        simp only at h1 ⊢
        rw [hfg _ _ h1]
        rfl

theorem pathsN_succ {lib : Lib} {n : Nat} {vs : List V} {ps : List (List V)} (h : pathsN lib n vs = some ps) :
    pathsN lib (n + 1) vs = some ps := by
  induction n generalizing vs ps with
  | zero => cases h
  | succ n ih => exact pathsLoop_mono (fun vs ps hh => ih hh) h

theorem pathsN_mono {lib : Lib} {n m : Nat} (hnm : n ≤ m) {vs : List V} {ps : List (List V)} (h : pathsN lib n vs = some ps) :
    pathsN lib m vs = some ps := by
  induction hnm with
  | refl => exact h
  | step _ ih => exact pathsN_succ ih

theorem libOk_iff (lib : Lib) : libOk lib = true ↔ (lib.map (·.1)).Nodup := by
  induction lib with
  | nil => simp [libOk]
  | cons t ts ih =>
    rw [libOk, Bool.and_eq_true, ih, List.map_cons, List.nodup_cons, List.all_eq_true]
    apply and_congr_left'
    constructor
    · intro h hm
      obtain ⟨x, hx, he⟩ := List.mem_map.1 hm
      have := h x hx
      simp [he] at this
    · intro h x hx
      simp only [bne_iff_ne, ne_eq]
      intro he
      exact h (List.mem_map.2 ⟨x, hx, he⟩)

theorem fieldsOf_iff {lib : Lib} (hl : (lib.map (·.1)).Nodup) (t : Str) (fs : List V) :
    fieldsOf lib t = some fs ↔ (t, fs) ∈ lib := by
  unfold fieldsOf
  induction lib with
  | nil => simp
  | cons x lib ih =>
    rw [List.map_cons, List.nodup_cons] at hl
    obtain ⟨k, v⟩ := x
    rw [List.find?_cons]
    by_cases h : k = t
    · subst h
      simp only [beq_self_eq_true, Option.map_some, Option.some.injEq, List.mem_cons, Prod.mk.injEq, true_and]
      constructor
      · rintro rfl; exact Or.inl rfl
      · rintro (rfl | h)
        · rfl
        · exact absurd (List.mem_map.2 ⟨_, h, rfl⟩) hl.1
    · simp only [beq_eq_false_iff_ne.2 h, List.mem_cons, Prod.mk.injEq]
      rw [ih hl.2]
      constructor
      · exact Or.inr
      · rintro (⟨h', _⟩ | h')
        · exact absurd h'.symm h
        · exact h'

theorem fieldsOf_none {lib : Lib} (t : Str) : fieldsOf lib t = none ↔ ∀ x ∈ lib, x.1 ≠ t := by
  unfold fieldsOf
  rw [Option.map_eq_none_iff, List.find?_eq_none]
  simp

theorem known_iff {lib : Lib} {v : V} : Known lib v ↔ (v.ddt = true → ∃ t ∈ lib, t.1 = v.type) := by
  unfold Known
  constructor
  · intro h hd
    obtain ⟨fs, hf⟩ := h hd
    false_or_by_contra
    rename_i hn
    rw [(fieldsOf_none v.type).2 (fun x hx he => hn ⟨x, hx, he⟩)] at hf
    cases hf
  · intro h hd
    obtain ⟨t, ht, he⟩ := h hd
    cases hf : fieldsOf lib v.type with
    | none => exact absurd he ((fieldsOf_none v.type).1 hf t ht)
    | some fs => exact ⟨fs, rfl⟩

theorem paths_of_pathsN {lib : Lib} (hl : (lib.map (·.1)).Nodup) {n : Nat} {vs : List V} {ps : List (List V)}
    (h : pathsN lib n vs = some ps) : Paths lib vs ps := by
  induction n generalizing vs ps with
  | zero => cases h
  | succ n ih =>
    have h : pathsLoop (pathsN lib n) lib vs = some ps := h
    induction vs generalizing ps with
    | nil => injection h with h; subst h; exact .nil
    | cons v vs ihv =>
      rw [pathsLoop, Option.bind_eq_some_iff] at h
      obtain ⟨qs, h1, h2⟩ := h
      rw [Option.map_eq_some_iff] at h2
      obtain ⟨ps', h2, rfl⟩ := h2
      have hp := ihv h2 h2
      unfold subPaths at h1
      cases hd : v.ddt with
      | false =>
        rw [hd] at h1
        injection h1 with h1
        subst h1
        exact .leaf (Or.inl hd) hp
      | true =>
        rw [hd] at h1
        cases hf : fieldsOf lib v.type with
        | none =>
          rw [hf] at h1
          injection h1 with h1
          subst h1
          exact .leaf (Or.inr ((fieldsOf_none _).1 hf)) hp
        | some sub =>
          rw [hf] at h1
          exact .node hd ((fieldsOf_iff hl _ _).1 hf) (ih h1) hp

theorem pathsN_of_paths {lib : Lib} (hl : (lib.map (·.1)).Nodup) {vs : List V} {ps : List (List V)}
    (h : Paths lib vs ps) : ∃ n, pathsN lib (n + 1) vs = some ps := by
  induction h with
  | nil => exact ⟨0, rfl⟩
  | @leaf c rest ps hc _ ih =>
    obtain ⟨n, hn⟩ := ih
    refine ⟨n, ?_⟩
    show pathsLoop (pathsN lib n) lib (c :: rest) = _
    have hn : pathsLoop (pathsN lib n) lib rest = some ps := hn
    rw [pathsLoop, hn]
    unfold subPaths
    cases hd : c.ddt with
    | false => rfl
    | true =>
      rcases hc with hc | hc
      · rw [hd] at hc; cases hc
      · rw [(fieldsOf_none _).2 hc]
        rfl
  | @node c fields rest qs ps hd hm _ _ ih1 ih2 =>
    obtain ⟨n, hn⟩ := ih1
    obtain ⟨m, hm2⟩ := ih2
    refine ⟨max (n + 1) m, ?_⟩
    show pathsLoop (pathsN lib (max (n + 1) m)) lib (c :: rest) = _
    have h2 : pathsLoop (pathsN lib (max (n + 1) m)) lib rest = some ps :=
      pathsN_mono (n := m + 1) (m := max (n + 1) m + 1) (by omega) hm2
    have h1 : pathsN lib (max (n + 1) m) fields = some qs := pathsN_mono (by omega) hn
    rw [pathsLoop, h2]
    unfold subPaths
    rw [hd, (fieldsOf_iff hl _ _).2 hm]
    simp only
    rw [h1]
    rfl

theorem paths_unique {lib : Lib} (hl : (lib.map (·.1)).Nodup) {vs : List V} {ps qs : List (List V)}
    (h : Paths lib vs ps) (h' : Paths lib vs qs) : ps = qs := by
  obtain ⟨n, hn⟩ := pathsN_of_paths hl h
  obtain ⟨m, hm⟩ := pathsN_of_paths hl h'
  have h1 := pathsN_mono (m := max (n + 1) (m + 1)) (by omega) hn
  have h2 := pathsN_mono (m := max (n + 1) (m + 1)) (by omega) hm
  rw [h1] at h2
  injection h2

end Ccpp.HM
