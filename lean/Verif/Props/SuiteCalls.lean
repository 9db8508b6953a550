import Verif.Props.SuiteLibrary
/-!
# C64: the scheme calls of the suite cap
-/
namespace Ccpp.Seq

/-! ## Lists -/

theorem mapM_cons_some {α β : Type} {f : α → Option β} {a : α} {l : List α} {r : List β} :
    (a :: l).mapM f = some r ↔ ∃ b bs, f a = some b ∧ l.mapM f = some bs ∧ r = b :: bs := by
  rw [List.mapM_cons]
  cases hf : f a with
  | none => simp
  | some b =>
    cases hl : l.mapM f with
    | none => simp
    | some bs => simp [eq_comm]

theorem mapM_get {α β : Type} {f : α → Option β} : ∀ {l : List α} {r : List β}, l.mapM f = some r →
    ∀ i : Nat, r[i]? = l[i]?.bind f
  | [], r, h, i => by simp at h; subst h; simp
  | a :: l, r, h, i => by
    obtain ⟨b, bs, h1, h2, rfl⟩ := mapM_cons_some.1 h
    cases i with
    | zero => simp [h1]
    | succ i => simpa using mapM_get h2 i

theorem mapM_length {α β : Type} {f : α → Option β} : ∀ {l : List α} {r : List β}, l.mapM f = some r → r.length = l.length
  | [], r, h => by simp at h; subst h; rfl
  | a :: l, r, h => by
    obtain ⟨b, bs, h1, h2, rfl⟩ := mapM_cons_some.1 h
    simp [mapM_length h2]

theorem mapM_append_some {α β : Type} {f : α → Option β} : ∀ {a b : List α} {r : List β},
    (a ++ b).mapM f = some r ↔ ∃ x y, a.mapM f = some x ∧ b.mapM f = some y ∧ r = x ++ y
  | [], b, r => by simp
  | c :: a, b, r => by
    rw [List.cons_append, mapM_cons_some]
    constructor
    · rintro ⟨u, us, h1, h2, rfl⟩
      obtain ⟨x, y, h3, h4, rfl⟩ := mapM_append_some.1 h2
      exact ⟨u :: x, y, mapM_cons_some.2 ⟨u, x, h1, h3, rfl⟩, h4, rfl⟩
    · rintro ⟨x, y, h1, h2, rfl⟩
      obtain ⟨u, us, h3, h4, rfl⟩ := mapM_cons_some.1 h1
      exact ⟨u, us ++ y, h3, mapM_append_some.2 ⟨us, y, h4, h2, rfl⟩, rfl⟩

theorem mapM_isSome {α β : Type} {f : α → Option β} : ∀ {l : List α},
    (∃ r, l.mapM f = some r) ↔ ∀ a ∈ l, ∃ b, f a = some b
  | [] => by simp
  | a :: l => by
    constructor
    · rintro ⟨r, h⟩
      obtain ⟨b, bs, h1, h2, rfl⟩ := mapM_cons_some.1 h
      intro x hx
      rcases List.mem_cons.1 hx with rfl | hx
      · exact ⟨b, h1⟩
      · exact mapM_isSome.1 ⟨bs, h2⟩ x hx
    · intro h
      obtain ⟨b, hb⟩ := h a (by simp)
      obtain ⟨bs, hbs⟩ := (mapM_isSome (l := l)).2 fun x hx => h x (by simp [hx])
      exact ⟨b :: bs, mapM_cons_some.2 ⟨b, bs, hb, hbs, rfl⟩⟩

/-! ## The trace of the generated code -/

theorem execAll_append (val : Str → Nat) (env : List (Option Str × Nat)) : ∀ a b : List Stmt,
    execAll val env (a ++ b) = execAll val env a ++ execAll val env b
  | [], b => by simp [execAll]
  | s :: a, b => by simp [execAll, execAll_append val env a b]

theorem needed_append (r : Str → Option Header) (vs : Vars) (a b : List Str) :
    needed r vs (a ++ b) = needed r vs a ++ needed r vs b := by
  simp [needed]

theorem analyzeScheme_eq {vs : Vars} {hs : List Header} {ph : Str} {idx : List Str} {n : Str} {p : Part} {idx' : List Str}
    (h : analyzeScheme vs (libOf hs) ph idx n = some (p, idx')) :
    (routine hs ph n = none ∧ p = .call none ∧ idx' = idx) ∨
    (∃ t, routine hs ph n = some t ∧ ((∀ i ∈ vs.needs t.title, i ∈ idx) ∧ p = .call (some t) ∧ idx' = idx ∨
      ∃ i e, i ∈ vs.needs t.title ∧ i ∉ idx ∧ vs.extent i = some e ∧ (∀ j ∈ vs.needs t.title, j ∈ idx ++ [i]) ∧
        p = .vloop i e t ∧ idx' = idx ++ [i])) := by
  unfold analyzeScheme at h
  rw [look_libOf] at h
  split at h
  · rw [Option.bind_some] at h
    change (match routine hs ph n with
      | none => some (Part.call none, idx)
      | some h => _) = _ at h
    cases hr : routine hs ph n with
    | none =>
      rw [hr] at h
      simp only [Option.some.injEq, Prod.mk.injEq] at h
      exact .inl ⟨rfl, h.1.symm, h.2.symm⟩
    | some t =>
      rw [hr] at h
      simp only at h
      refine .inr ⟨t, rfl, ?_⟩
      cases hf : (vs.needs t.title).find? (fun i => decide (i ∉ idx)) with
      | none =>
        rw [hf] at h
        simp only [Option.some.injEq, Prod.mk.injEq] at h
        refine .inl ⟨?_, h.1.symm, h.2.symm⟩
        intro i hi
        have := List.find?_eq_none.1 hf i hi
        simpa using this
      | some i =>
        rw [hf] at h
        simp only at h
        cases he : vs.extent i with
        | none => rw [he] at h; cases h
        | some e =>
          rw [he, Option.bind_some] at h
          cases hg : (vs.needs t.title).find? (fun j => decide (j ∉ idx ++ [i])) with
          | some _ => rw [hg] at h; cases h
          | none =>
            rw [hg] at h
            simp only [Option.some.injEq, Prod.mk.injEq] at h
            refine .inr ⟨i, e, List.mem_of_find?_eq_some hf, ?_, he, ?_, h.1.symm, h.2.symm⟩
            · have := List.find?_some hf
              simpa using this
            · intro j hj
              have := List.find?_eq_none.1 hg j hj
              simp only [decide_eq_true_eq, Decidable.not_not] at this
              exact this
  · cases h

section
variable {loop : Str → Option Str} {vs : Vars} {hs : List Header} {ph : Str} {val : Str → Nat}

theorem scheme_run {n : Str} {idx idx' : List Str} {p : Part} {ss : List Stmt} (env : List (Option Str × Nat))
    (h : analyzeScheme vs (libOf hs) ph idx n = some (p, idx')) (hw : p.write loop = some ss)
    (hn : (idx ++ needed (routine hs ph) vs [n]).Nodup) :
    idx' = idx ++ needed (routine hs ph) vs [n] ∧ execAll val env ss = callOf vs val env (routine hs ph n) := by
  have hneed : needed (routine hs ph) vs [n] = ((routine hs ph n).map fun h => vs.needs h.title).getD [] := by
    simp [needed]
  rw [hneed] at hn ⊢
  rcases analyzeScheme_eq h with ⟨hr, rfl, rfl⟩ | ⟨t, hr, ⟨hall, rfl, rfl⟩ | ⟨i, e, hi, hni, he, hall, rfl, rfl⟩⟩
  · rw [hr] at hn ⊢
    simp only [Part.write, Option.some.injEq] at hw
    subst hw
    simp [execAll, Stmt.exec, callOf]
  · rw [hr] at hn ⊢
    simp only [Option.map_some, Option.getD_some] at hn ⊢
    have hnil : vs.needs t.title = [] := by
      cases hd : vs.needs t.title with
      | nil => rfl
      | cons a l =>
        rw [hd] at hn hall
        rw [List.nodup_append] at hn
        exact absurd rfl (hn.2.2 a (hall a (by simp)) a (by simp))
    simp only [Part.write, Option.some.injEq] at hw
    subst hw
    rw [hnil]
    simp [execAll, Stmt.exec, callOf, hnil, levels]
  · rw [hr] at hn ⊢
    simp only [Option.map_some, Option.getD_some] at hn ⊢
    have hone : vs.needs t.title = [i] := by
      rw [List.nodup_append] at hn
      have hsub : ∀ j ∈ vs.needs t.title, j = i := by
        intro j hj
        rcases List.mem_append.1 (hall j hj) with hji | hji
        · exact absurd rfl (hn.2.2 j hji j hj)
        · simpa using hji
      cases hd : vs.needs t.title with
      | nil => rw [hd] at hi; cases hi
      | cons a l =>
        rw [hd] at hsub hn
        have ha := hsub a (by simp)
        cases l with
        | nil => rw [ha]
        | cons b l =>
          have hb := hsub b (by simp)
          have := hn.2.1
          rw [ha, hb] at this
          simp at this
    simp only [Part.write, Option.some.injEq] at hw
    subst hw
    refine ⟨by rw [hone], ?_⟩
    simp only [execAll, Stmt.exec, callOf, hone, levels, he, Option.getD_some, List.append_nil]
    rw [List.map_flatMap]
    rfl

mutual
theorem obj_run (hl : ∀ l b, loop l = some b → b = l) : ∀ (x : Xml) {o : Obj} {idx idx' : List Str} {p : Part} {ss : List Stmt}
    (env : List (Option Str × Nat)), newObject x = some o → analyzeObj vs (libOf hs) ph idx o = some (p, idx') →
    p.write loop = some ss → (idx ++ needed (routine hs ph) vs x.names).Nodup →
    idx' = idx ++ needed (routine hs ph) vs x.names ∧
      execAll val env ss = intended (routine hs ph) vs val env x
  | .scheme n, o, idx, idx', p, ss, env, h1, h2, h3, h4 => by
    simp only [newObject, Option.some.injEq] at h1
    subst h1
    rw [analyzeObj] at h2
    rw [Xml.names] at h4 ⊢
    rw [intended]
    exact scheme_run env h2 h3 h4
  | .subcycle l items, o, idx, idx', p, ss, env, h1, h2, h3, h4 => by
    rw [newObject] at h1
    split at h1
    · rw [Option.map_eq_some_iff] at h1
      obtain ⟨os, ho, rfl⟩ := h1
      rw [analyzeObj, Option.map_eq_some_iff] at h2
      obtain ⟨⟨ps, j⟩, ha, hb⟩ := h2
      simp only [Prod.mk.injEq] at hb
      obtain ⟨rfl, rfl⟩ := hb
      rw [Part.write, Option.bind_eq_some_iff] at h3
      obtain ⟨b, hb, h3⟩ := h3
      rw [Option.map_eq_some_iff] at h3
      obtain ⟨body, hbody, rfl⟩ := h3
      have hbl := hl l b hb
      subst hbl
      rw [Xml.names] at h4 ⊢
      refine ⟨(objs_run hl items env ho ha hbody h4).1, ?_⟩
      rw [intended, execAll, Stmt.exec, execAll, List.append_nil]
      congr 1
      funext k
      exact (objs_run hl items (env ++ [(none, k + 1)]) ho ha hbody h4).2
    · cases h1
  | .timeSplit items, o, idx, idx', p, ss, env, h1, h2, h3, h4 => by
    rw [newObject, Option.map_eq_some_iff] at h1
    obtain ⟨os, ho, rfl⟩ := h1
    rw [analyzeObj, Option.map_eq_some_iff] at h2
    obtain ⟨⟨ps, j⟩, ha, hb⟩ := h2
    simp only [Prod.mk.injEq] at hb
    obtain ⟨rfl, rfl⟩ := hb
    rw [Part.write] at h3
    rw [Xml.names] at h4 ⊢
    rw [intended]
    exact objs_run hl items env ho ha h3 h4
  | .other _, o, idx, idx', p, ss, env, h1, h2, h3, h4 => by
    rw [newObject] at h1
    cases h1
theorem objs_run (hl : ∀ l b, loop l = some b → b = l) : ∀ (xs : List Xml) {os : List Obj} {idx idx' : List Str} {ps : List Part}
    {ss : List Stmt} (env : List (Option Str × Nat)), newObjects xs = some os →
    analyzeObjs vs (libOf hs) ph idx os = some (ps, idx') →
    writeParts loop ps = some ss → (idx ++ needed (routine hs ph) vs (namesOf xs)).Nodup →
    idx' = idx ++ needed (routine hs ph) vs (namesOf xs) ∧
      execAll val env ss = intendedAll (routine hs ph) vs val env xs
  | [], os, idx, idx', ps, ss, env, h1, h2, h3, h4 => by
    simp only [newObjects, Option.some.injEq] at h1
    subst h1
    simp only [analyzeObjs, Option.some.injEq, Prod.mk.injEq] at h2
    obtain ⟨rfl, rfl⟩ := h2
    simp only [writeParts, Option.some.injEq] at h3
    subst h3
    simp [namesOf, needed, execAll, intendedAll]
  | x :: xs, os, idx, idx', ps, ss, env, h1, h2, h3, h4 => by
    rw [newObjects, Option.bind_eq_some_iff] at h1
    obtain ⟨o, ho, h1⟩ := h1
    rw [Option.map_eq_some_iff] at h1
    obtain ⟨os', hos, rfl⟩ := h1
    rw [analyzeObjs, Option.bind_eq_some_iff] at h2
    obtain ⟨⟨p, j⟩, ha, h2⟩ := h2
    rw [Option.map_eq_some_iff] at h2
    obtain ⟨⟨ps', j'⟩, hb, h2⟩ := h2
    simp only [Prod.mk.injEq] at h2
    obtain ⟨rfl, rfl⟩ := h2
    rw [writeParts, Option.bind_eq_some_iff] at h3
    obtain ⟨s, hs1, h3⟩ := h3
    rw [Option.map_eq_some_iff] at h3
    obtain ⟨ss', hs2, rfl⟩ := h3
    rw [namesOf, needed_append, ← List.append_assoc] at h4
    obtain ⟨i1, i2⟩ := obj_run hl x env ho ha hs1 (List.nodup_append.1 h4).1
    subst i1
    obtain ⟨i3, i4⟩ := objs_run hl xs env hos hb hs2 h4
    rw [namesOf, needed_append, ← List.append_assoc, execAll_append, intendedAll]
    exact ⟨i3, by rw [i2, i4]⟩
end

end

/-! ## Names, imports -/

mutual
theorem obj_names : ∀ (x : Xml) {o : Obj}, newObject x = some o → o.schemes = x.names
  | .scheme n, o, h => by
    simp only [newObject, Option.some.injEq] at h
    subst h
    rfl
  | .subcycle l items, o, h => by
    rw [newObject] at h
    split at h
    · rw [Option.map_eq_some_iff] at h
      obtain ⟨os, ho, rfl⟩ := h
      rw [Obj.schemes, Xml.names]
      exact objs_names items ho
    · cases h
  | .timeSplit items, o, h => by
    rw [newObject, Option.map_eq_some_iff] at h
    obtain ⟨os, ho, rfl⟩ := h
    rw [Obj.schemes, Xml.names]
    exact objs_names items ho
  | .other _, o, h => by rw [newObject] at h; cases h
theorem objs_names : ∀ (xs : List Xml) {os : List Obj}, newObjects xs = some os → schemesOf os = namesOf xs
  | [], os, h => by
    simp only [newObjects, Option.some.injEq] at h
    subst h
    rfl
  | x :: xs, os, h => by
    rw [newObjects, Option.bind_eq_some_iff] at h
    obtain ⟨o, ho, h⟩ := h
    rw [Option.map_eq_some_iff] at h
    obtain ⟨os', hos, rfl⟩ := h
    rw [schemesOf, namesOf, obj_names x ho, objs_names xs hos]
end

theorem routinesOf_append : ∀ a b : List Stmt, routinesOf (a ++ b) = routinesOf a ++ routinesOf b
  | [], b => by simp [routinesOf]
  | s :: a, b => by simp [routinesOf, routinesOf_append a b]

mutual
theorem part_uses {loop : Str → Option Str} : ∀ (p : Part) {ss : List Stmt}, p.write loop = some ss →
    p.uses.map (·.2) = routinesOf ss
  | .call none, ss, h => by
    simp only [Part.write, Option.some.injEq] at h
    subst h; rfl
  | .call (some t), ss, h => by
    simp only [Part.write, Option.some.injEq] at h
    subst h; rfl
  | .vloop i e t, ss, h => by
    simp only [Part.write, Option.some.injEq] at h
    subst h; rfl
  | .subcycle l ps, ss, h => by
    rw [Part.write, Option.bind_eq_some_iff] at h
    obtain ⟨b, hb, h⟩ := h
    rw [Option.map_eq_some_iff] at h
    obtain ⟨body, hbody, rfl⟩ := h
    rw [Part.uses, routinesOf, Stmt.routines, routinesOf, List.append_nil]
    exact parts_uses ps hbody
  | .timeSplit ps, ss, h => by
    rw [Part.write] at h
    rw [Part.uses]
    exact parts_uses ps h
theorem parts_uses {loop : Str → Option Str} : ∀ (ps : List Part) {ss : List Stmt}, writeParts loop ps = some ss →
    (usesOf ps).map (·.2) = routinesOf ss
  | [], ss, h => by
    simp only [writeParts, Option.some.injEq] at h
    subst h; rfl
  | p :: ps, ss, h => by
    rw [writeParts, Option.bind_eq_some_iff] at h
    obtain ⟨s, hs1, h⟩ := h
    rw [Option.map_eq_some_iff] at h
    obtain ⟨ss', hs2, rfl⟩ := h
    rw [usesOf, List.map_append, routinesOf_append, part_uses p hs1, parts_uses ps hs2]
end

theorem scheme_uses {vs : Vars} {hs : List Header} (hk : (hs.map headerKey).Nodup) {ph : Str} {idx idx' : List Str} {n : Str}
    {p : Part} (h : analyzeScheme vs (libOf hs) ph idx n = some (p, idx')) : ∀ u ∈ p.uses, (⟨u.2, u.1⟩ : Header) ∈ hs := by
  have hm : ∀ t, routine hs ph n = some t → t ∈ hs := fun t ht => ((look_entry hk _ _ _).1 ht).1
  rcases analyzeScheme_eq h with ⟨hr, rfl, rfl⟩ | ⟨t, hr, ⟨_, rfl, rfl⟩ | ⟨i, e, _, _, _, _, rfl, rfl⟩⟩
  · intro u hu; cases hu
  · intro u hu
    simp only [Part.uses, List.mem_singleton] at hu
    subst hu
    exact hm t hr
  · intro u hu
    simp only [Part.uses, List.mem_singleton] at hu
    subst hu
    exact hm t hr

mutual
theorem obj_uses {vs : Vars} {hs : List Header} (hk : (hs.map headerKey).Nodup) {ph : Str} : ∀ (o : Obj) {idx idx' : List Str}
    {p : Part}, analyzeObj vs (libOf hs) ph idx o = some (p, idx') → ∀ u ∈ p.uses, (⟨u.2, u.1⟩ : Header) ∈ hs
  | .scheme n, idx, idx', p, h => by
    rw [analyzeObj] at h
    exact scheme_uses hk h
  | .subcycle l os, idx, idx', p, h => by
    rw [analyzeObj, Option.map_eq_some_iff] at h
    obtain ⟨⟨ps, j⟩, ha, hb⟩ := h
    simp only [Prod.mk.injEq] at hb
    obtain ⟨rfl, rfl⟩ := hb
    rw [Part.uses]
    exact objs_uses hk os ha
  | .timeSplit os, idx, idx', p, h => by
    rw [analyzeObj, Option.map_eq_some_iff] at h
    obtain ⟨⟨ps, j⟩, ha, hb⟩ := h
    simp only [Prod.mk.injEq] at hb
    obtain ⟨rfl, rfl⟩ := hb
    rw [Part.uses]
    exact objs_uses hk os ha
theorem objs_uses {vs : Vars} {hs : List Header} (hk : (hs.map headerKey).Nodup) {ph : Str} : ∀ (os : List Obj) {idx idx' : List Str}
    {ps : List Part}, analyzeObjs vs (libOf hs) ph idx os = some (ps, idx') → ∀ u ∈ usesOf ps, (⟨u.2, u.1⟩ : Header) ∈ hs
  | [], idx, idx', ps, h => by
    simp only [analyzeObjs, Option.some.injEq, Prod.mk.injEq] at h
    obtain ⟨rfl, rfl⟩ := h
    intro u hu; cases hu
  | o :: os, idx, idx', ps, h => by
    rw [analyzeObjs, Option.bind_eq_some_iff] at h
    obtain ⟨⟨p, j⟩, ha, h⟩ := h
    rw [Option.map_eq_some_iff] at h
    obtain ⟨⟨ps', j'⟩, hb, h⟩ := h
    simp only [Prod.mk.injEq] at h
    obtain ⟨rfl, rfl⟩ := h
    intro u hu
    rw [usesOf] at hu
    rcases List.mem_append.1 hu with hu | hu
    · exact obj_uses hk o ha u hu
    · exact objs_uses hk os hb u hu
end

end Ccpp.Seq
