import Verif.Props.SchemeTablesEx
/-! # C79: files that are refused -/
namespace Ccpp.ST
open FDecl (Str Blank)

variable {V : Type}

/-! ## Modules of the same name -/

theorem setLast_names (n : Str) (k : Nat) (ms : List Mod) : (setLast n k ms).map (·.name) = ms.map (·.name) := by
  unfold setLast
  rw [List.map_map]
  apply List.map_congr_left
  intro m _
  simp only [Function.comp]
  split
  · next h => exact h.symm
  · rfl

theorem modScan_known {n : Str} (k : Nat) (cur : Option Str) (ms : List Mod) (a : List Str) (l : Str) (b : List Str) (hm : n ∈ ms.map (·.name))
    (hl : ModuleLine l n) : modScan k cur ms (a ++ l :: b) = none := by
  induction a generalizing k cur ms with
  | nil =>
    have : (ms.any fun m => m.name == n) = true := by
      obtain ⟨m, h1, h2⟩ := List.mem_map.1 hm
      exact List.any_eq_true.2 ⟨m, h1, by simpa using h2⟩
    rw [List.nil_append, modScan, modStep, (modEvent_start l n).2 hl]
    simp [this]
  | cons x a ih =>
    rw [List.cons_append, modScan]
    cases e : modStep k cur ms x with
    | none => rfl
    | some r =>
      rw [Option.bind_some]
      apply ih
      unfold modStep at e
      split at e
      · split at e
        · cases e
        · cases e; simp only [List.map_append, List.mem_append]; exact .inl hm
      · obtain ⟨c, _, e⟩ := Option.bind_eq_some_iff.1 e
        split at e
        · cases e; rw [setLast_names]; exact hm
        · cases e
      · cases e; exact hm

/-- **C79, modules of the same name**: any file with two modules of the same name is refused. -/
theorem C79_twice_module {read : Str → Str → Option (List (Str × V))} {compat : V → V → Bool} {mandatory file : List Str} {a b c : List Line} {l l' : Line}
    {n : Str} (hf : Logical file (a ++ l :: b ++ l' :: c)) (h : ModuleLine l n) (h' : ModuleLine l' n) : parse read compat mandatory file = none := by
  unfold parse
  simp only
  rw [joinLines_logical hf]
  clear hf
  have : ∀ k cur ms, modScan k cur ms (a ++ l :: b ++ l' :: c) = none := by
    intro k cur ms
    induction a generalizing k cur ms with
    | nil =>
      rw [List.nil_append, List.cons_append, modScan]
      cases e : modStep k cur ms l with
      | none => rfl
      | some r =>
        rw [Option.bind_some]
        apply modScan_known _ _ _ _ _ _ _ h'
        unfold modStep at e
        rw [(modEvent_start l n).2 h] at e
        simp only at e
        split at e
        · cases e
        · cases e; simp
    | cons x a ih =>
      rw [List.cons_append, List.cons_append, modScan]
      cases e : modStep k cur ms x with
      | none => rfl
      | some r => rw [Option.bind_some]; exact ih _ _ _
  rw [this]; rfl

/-! ## Wrong parts of a module -/

theorem subScan_append (m : Str) (k : Nat) (st : RSt) (a b : List Str) :
    subScan m k st (a ++ b) = (subScan m k st a).bind fun st' => subScan m (k + a.length) st' b := by
  induction a generalizing k st with
  | nil => rfl
  | cons x a ih =>
    rw [List.cons_append, subScan, subScan]
    cases subStep m k st x with
    | none => rfl
    | some r =>
      rw [Option.bind_some, Option.bind_some, ih, List.length_cons, show k + 1 + a.length = k + (a.length + 1) by omega]

theorem regsOf_names (k : Nat) (is : List Item) : (regsOf k is).map (·.1) = is.flatMap Item.names := by
  induction is generalizing k with
  | nil => rfl
  | cons i is ih =>
    cases i with
    | line l => rw [regsOf, ih]; rfl
    | other o r => rw [regsOf, ih]; rfl
    | entry e => rw [regsOf, List.map_cons, ih]; rfl

theorem opensEntry_scheme {m l n : Str} (h : OpensEntry m l n) : subEvent l = .start n ∧ schemeOf n = some m := by
  obtain ⟨ho, s, hs, he, ht⟩ := h
  exact ⟨(subEvent_start l n).2 ho, by rw [he]; exact schemeOf_entry hs ht⟩

theorem opensEntry_step {m l n : Str} (h : OpensEntry m l n) (k : Nat) (nm : Option Str) (regs : List (Str × Nat × Bool)) :
    subStep m k ⟨false, nm, regs⟩ l = if n ∈ regs.map (·.1) then none else some ⟨true, some n, regs ++ [(n, k, false)]⟩ := by
  have hany : (regs.any fun r => r.1 == n) = true ↔ n ∈ regs.map (·.1) := by
    rw [List.any_eq_true, List.mem_map]
    simp only [beq_iff_eq]
  unfold subStep
  rw [(opensEntry_scheme h).1]
  simp only [Bool.false_eq_true, if_false, (opensEntry_scheme h).2, ne_eq, not_true_eq_false]
  by_cases hn : n ∈ regs.map (·.1)
  · rw [if_pos (hany.2 hn), if_pos hn]
  · rw [if_neg fun h => hn (hany.1 h), if_neg hn]

theorem wrong_scan {m : Str} {is : List Item} (h : Wrong m is) (k : Nat) (nm : Option Str) (st : RSt)
    (hs : subScan m k ⟨false, nm, []⟩ (is.flatMap Item.lines) = some st) : (st.regs.all fun r => r.2.2) = false := by
  have good : ∀ {good rest : List Item}, (∀ i ∈ good, Item.Ok m i) → (good.flatMap Item.names).Nodup →
      subScan m k ⟨false, nm, []⟩ ((good ++ rest).flatMap Item.lines) = some st →
      ∃ nm' k', subScan m k' ⟨false, nm', regsOf k good⟩ (rest.flatMap Item.lines) = some st := by
    intro good rest h1 h2 h3
    obtain ⟨nm', h4⟩ := items_scan h1 k nm [] h2 (by simp)
    rw [List.flatMap_append, subScan_append, h4, Option.bind_some] at h3
    exact ⟨nm', _, by simpa using h3⟩
  cases h with
  | @twice g o ls n rest h1 h2 h3 h4 h5 =>
    obtain ⟨nm', k', h⟩ := good h1 h2 hs
    rw [h5, subScan, opensEntry_step h3, if_pos (by rw [regsOf_names]; exact h4)] at h
    cases h
  | @foreign g o ls n s rest h1 h2 h3 h4 h5 h6 =>
    obtain ⟨nm', k', h⟩ := good h1 h2 hs
    have hsch : ∃ s', schemeOf n = some s' ∧ s' ≠ m := by
      cases e : schemeOf n with
      | none => exact absurd h4 ((schemeOf_none n).1 e s)
      | some s' =>
        refine ⟨s', rfl, ?_⟩
        rintro rfl
        apply h5
        unfold schemeOf at e
        obtain ⟨st, hst, e⟩ := List.exists_of_findSome?_eq_some e
        split at e
        · next hsuf =>
          obtain ⟨p, rfl⟩ := List.isSuffixOf_iff_suffix.1 hsuf
          rw [take_entry] at e
          cases e
          exact ⟨st, hst, rfl⟩
        · cases e
    obtain ⟨s', e1, e2⟩ := hsch
    rw [h6, subScan, subStep, (subEvent_start o n).2 h3] at h
    simp [e1, e2] at h
  | @bare g o b x ls n rest h1 h2 h3 h4 h5 h6 h7 =>
    obtain ⟨nm', k', h⟩ := good h1 h2 hs
    rw [h7, subScan, opensEntry_step h3, if_neg (by rw [regsOf_names]; exact h4), Option.bind_some, body_lines h5, subScan, subStep,
      (subEvent_bare x).2 h6] at h
    cases h
  | @endless g o b n rest h1 h2 h3 h4 h5 h6 =>
    obtain ⟨nm', k', h⟩ := good h1 h2 hs
    rw [h6, subScan, opensEntry_step h3, if_neg (by rw [regsOf_names]; exact h4), Option.bind_some, ← List.append_nil b, body_lines h5] at h
    cases h
    rw [Bool.eq_false_iff]
    intro h
    have := List.all_eq_true.1 h (n, k', false) (by simp)
    cases this

theorem doMods_wrong {read : Str → Str → Option (List (Str × V))} {compat : V → V → Bool} {mandatory lines : List Str} {ms : List Mod} {m : Mod}
    (hm : m ∈ ms) (h : ∀ e nm st, m.last = some e → subScan m.name m.first ⟨false, nm, []⟩ ((lines.take e).drop m.first) = some st →
      (st.regs.all fun r => r.2.2) = false) (md : List (Str × List V)) (nm : Option Str) : doMods read compat mandatory lines md nm ms = none := by
  induction ms generalizing md nm with
  | nil => cases hm
  | cons x ms ih =>
    rw [doMods]
    cases e1 : x.last with
    | none => rfl
    | some e =>
      rw [Option.bind_some]
      cases e2 : subScan x.name x.first ⟨false, nm, []⟩ ((lines.take e).drop x.first) with
      | none => rfl
      | some st =>
        rw [Option.bind_some]
        rcases List.mem_cons.1 hm with rfl | hm
        · rw [h e nm st e1 e2]; rfl
        · split
          · cases doSubs read compat mandatory lines x.name md st.regs with
            | none => rfl
            | some a => rw [Option.bind_some, ih hm]; rfl
          · rfl

theorem modsOf_mem {ps : List (List Line × SMod)} {p : List Line × SMod} (hp : p ∈ ps) {lines : List Str} (pre tail : List Str)
    (he : lines = pre ++ ps.flatMap (fun p => p.1 ++ p.2.lines) ++ tail) :
    ∃ a b, lines = a ++ p.2.lines ++ b ∧ (⟨p.2.name, a.length, some (a.length + p.2.lines.length - 1)⟩ : Mod) ∈ modsOf pre.length ps := by
  induction ps generalizing pre with
  | nil => cases hp
  | cons q ps ih =>
    rcases List.mem_cons.1 hp with rfl | hp
    · refine ⟨pre ++ p.1, ps.flatMap (fun p => p.1 ++ p.2.lines) ++ tail, by rw [he]; simp, ?_⟩
      rw [modsOf, List.length_append]
      simp
    · obtain ⟨a, b, h1, h2⟩ := ih hp (pre ++ q.1 ++ q.2.lines) (by rw [he]; simp)
      refine ⟨a, b, h1, ?_⟩
      rw [modsOf]
      rw [List.length_append, List.length_append] at h2
      exact List.mem_cons_of_mem _ h2

/-- **C79, wrong entry points**: a file is refused if a module has two entry points of the same name, an entry point of another scheme, one that
contains `end` alone, or one without end. -/
theorem C79_wrong {read : Str → Str → Option (List (Str × V))} {compat : V → V → Bool} {mandatory file : List Str} {f : SFile} (hf : f.Shape)
    (hl : Logical file f.lines) {q : List Line} {m : SMod} (hp : (q, m) ∈ f.mods) (hw : Wrong m.name m.items) : parse read compat mandatory file = none := by
  unfold parse
  simp only
  rw [joinLines_logical hl]
  have : modScan 0 none [] f.lines = some (modsOf 0 f.mods) := by
    unfold SFile.lines
    rw [modScan_mods hf.1 hf.2.2 hf.2.1 0 none [] (by simp)]
    simp
  rw [this, Option.bind_some]
  obtain ⟨a, b, h1, h2⟩ := modsOf_mem hp (lines := f.lines) [] f.tail (by simp [SFile.lines])
  refine doMods_wrong h2 ?_ [] none
  intro e nm st he hs
  simp only [Option.some.injEq] at he
  subst he
  have hslice : (f.lines.take (a.length + m.lines.length - 1)).drop a.length = m.opening :: m.items.flatMap Item.lines := by
    have h3 : f.lines = (a ++ m.opening :: m.items.flatMap Item.lines) ++ (m.closing :: b) := by rw [h1, SMod.lines]; simp
    rw [h3, List.take_left' (by simp [SMod.lines]), List.drop_left' rfl]
  simp only at hs
  rw [hslice, subScan, subStep, module_noSub (hf.1 _ hp).2.1] at hs
  simp only [Option.bind_some] at hs
  exact wrong_scan hw _ _ _ hs

/-- An example: the second `foo_run` -/
theorem C79_wrong_example : Wrong "foo".toList [
    .entry ⟨"foo_run".toList, "subroutine foo_run".toList, [], "end subroutine foo_run".toList⟩,
    .entry ⟨"foo_run".toList, "subroutine foo_run".toList, [], "end subroutine foo_run".toList⟩] := by
  have ho : OpensEntry "foo".toList "subroutine foo_run".toList "foo_run".toList :=
    ⟨(subEvent_start _ _).1 rfl, "run".toList, by decide +kernel, by decide +kernel, fun _ => by decide +kernel⟩
  have hi : Item.Ok "foo".toList (.entry ⟨"foo_run".toList, "subroutine foo_run".toList, [], "end subroutine foo_run".toList⟩) :=
    ⟨ho.1, ho.2, by simp, .inr ((subEvent_stop _ _).1 rfl)⟩
  exact .twice (good := [_]) (rest := [_]) (by simpa using hi) (by simp [Item.names]) ho (by simp [Item.names]) (ls := ["end subroutine foo_run".toList]) rfl

end Ccpp.ST
