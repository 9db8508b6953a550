import Verif.Props.VariableTablesThm
/-! # C81: files that are refused -/
namespace Ccpp.VT
open FDecl (Str Blank)
open ST (Mod Line Logical)

variable {V : Type}

theorem typeScan_wrong {m : HMod} (h1 : ModuleLine m.opening m.name) (h : Wrong m.items) : typeScan (m.opening :: m.inside) = none := by
  unfold typeScan HMod.inside
  rw [List.foldlM_cons, typeStep, module_noType h1]
  simp only [bind, Option.bind_some]
  generalize m.items = is at h
  have good : ∀ {good rest : List Item}, (∀ i ∈ good, Item.Ok i) → (good.flatMap Item.names).Nodup →
      ((good ++ rest).flatMap Item.lines).foldlM typeStep (none, []) = (rest.flatMap Item.lines).foldlM typeStep (none, good.flatMap Item.names) := by
    intro good rest ha hb
    rw [List.flatMap_append, List.foldlM_append, types_items ha [] (by simpa using hb)]
    rfl
  have openT : ∀ {o n : Str} {b ls regs : List Str}, TypeDef o n → Starts o → (∀ l ∈ b, Neutral l) → (o :: (b ++ ls)).foldlM typeStep (none, regs) = none ∨
      (o :: (b ++ ls)).foldlM typeStep (none, regs) = ls.foldlM typeStep (some n, regs ++ [n]) := by
    intro o n b ls regs h1 h2 h3
    rw [List.foldlM_cons, typeStep, typeDef_event h1 h2]
    simp only [Option.bind_some, Option.isSome_none, Bool.false_or, List.contains_iff_mem]
    by_cases hn : n ∈ regs
    · left; rw [if_pos hn]; rfl
    · right
      rw [if_neg hn]
      simp only [bind, Option.bind_some]
      rw [List.foldlM_append, types_neutral h3]
      rfl
  cases h with
  | twice ha hb ht hs hn e =>
    rw [good ha hb, e, List.foldlM_cons, typeStep, typeDef_event ht hs]
    simp only [Option.bind_some, Option.isSome_none, Bool.false_or, List.contains_iff_mem]
    rw [if_pos hn]; rfl
  | stray ha hb ht e =>
    rw [good ha hb, e, List.foldlM_cons, typeStep, (typeEvent_stop _ _).2 ht]
    rfl
  | nested ha hb ht hs hn hx e =>
    rw [good ha hb, e]
    rcases openT ht hs hn with h | h
    · exact h
    · rw [h, List.foldlM_cons, typeStep, starts_event hx]
      simp
  | mismatch ha hb ht hs hn hx hne e =>
    rw [good ha hb, e]
    rcases openT ht hs hn with h | h
    · exact h
    · rw [h, List.foldlM_cons, typeStep, (typeEvent_stop _ _).2 hx]
      simp [hne]

theorem foldlM_none {α β : Type} {g : β → α → Option β} {l : List α} {x : α} (hx : x ∈ l) (h : ∀ b, g b x = none) (b : β) : l.foldlM g b = none := by
  induction l generalizing b with
  | nil => cases hx
  | cons y l ih =>
    rw [List.foldlM_cons]
    rcases List.mem_cons.1 hx with rfl | hx
    · rw [h]; rfl
    · cases g b y with
      | none => rfl
      | some c => exact ih hx c

/-- **C81, refusals**: a file of modules is refused if the types of one of them are wrong: two of the same name, the end of none, one inside another, or one that ends
with another name. -/
theorem C81_wrong {read : Str → Str → Option (List (Str × V))} {compat : V → V → Bool} {mandatory : List (Str × V)} {file : List Str} {f : HFile} (hf : f.Shape)
    (hl : Logical file f.lines) {p : List Line × HMod} (hp : p ∈ f.mods) (hw : Wrong p.2.items) : parse read compat mandatory file = none := by
  unfold parse
  rw [ST.joinLines_logical hl]
  have : modScan 0 none [] f.lines = some (modsOf 0 f.mods) := by
    unfold HFile.lines
    rw [modScan_mods hf.1 hf.2.2 hf.2.1 0 none [] (by simp)]
    simp
  rw [this, Option.bind_some]
  have hmem : ∀ (ps : List (List Line × HMod)), p ∈ ps → ∀ (pre tail : List Str), f.lines = pre ++ (ps.flatMap (fun p => p.1 ++ p.2.lines) ++ tail) →
      ∃ k e, (⟨p.2.name, k, some e⟩ : Mod) ∈ modsOf pre.length ps ∧ (f.lines.take e).drop k = p.2.opening :: p.2.inside := by
    intro ps
    induction ps with
    | nil => intro h; cases h
    | cons q ps ih =>
      intro hq pre tail he
      rcases List.mem_cons.1 hq with rfl | hq
      · refine ⟨_, _, List.mem_cons_self .., ?_⟩
        have hl : f.lines = (pre ++ p.1) ++ ((p.2.opening :: p.2.inside) ++ (p.2.closing :: (ps.flatMap (fun p => p.1 ++ p.2.lines) ++ tail))) := by
          rw [he]; simp [HMod.lines]
        rw [hl, show pre.length + p.1.length + p.2.lines.length - 1 = (pre ++ p.1).length + (p.2.opening :: p.2.inside).length by simp [HMod.lines],
          show pre.length + p.1.length = (pre ++ p.1).length by simp, List.take_length_add_append, List.take_left', List.drop_left]
        rfl
      · obtain ⟨k, e, h1, h2⟩ := ih hq (pre ++ q.1 ++ q.2.lines) tail (by rw [he]; simp)
        refine ⟨k, e, ?_, h2⟩
        rw [modsOf]
        refine List.mem_cons_of_mem _ ?_
        simpa [Nat.add_assoc] using h1
  obtain ⟨k, e, h1, h2⟩ := hmem f.mods hp [] f.tail (by simp [HFile.lines])
  refine foldlM_none h1 (fun md => ?_) _
  unfold doMod
  simp only [Option.bind_some]
  rw [h2, typeScan_wrong (hf.1 p hp).2.1 hw]
  rfl

/-- **C81, refusals**: a second module of the same name -/
theorem C81_twice_module {read : Str → Str → Option (List (Str × V))} {compat : V → V → Bool} {mandatory : List (Str × V)} {file : List Str} {f : HFile}
    (hf : f.Shape) {o n : Str} {rest : List Str} (hl : Logical file (f.lines ++ o :: rest)) (ho : ModuleLine o n) (hn : n ∈ f.mods.map fun p => p.2.name) :
    parse read compat mandatory file = none := by
  unfold parse
  rw [ST.joinLines_logical hl]
  have key : ∀ (ps : List (List Line × HMod)), (∀ p ∈ ps, (∀ l ∈ p.1, NoModule l) ∧ p.2.Shape) → (ps.map fun p => p.2.name).Nodup →
      ∀ (k : Nat) (cur : Option Str) (ms : List Mod), (∀ p ∈ ps, ∀ x ∈ ms, x.name ≠ p.2.name) → (n ∈ (ps.map fun p => p.2.name) ∨ ∃ x ∈ ms, x.name = n) →
      modScan k cur ms (ps.flatMap (fun p => p.1 ++ p.2.lines) ++ (f.tail ++ o :: rest)) = none := by
    intro ps
    induction ps with
    | nil =>
      intro _ _ k cur ms _ hm
      rw [List.flatMap_nil, List.nil_append, modScan_neutral hf.2.1, modScan, modStep, (modEvent_start _ _).2 ho]
      rcases hm with hm | ⟨x, hx, he⟩
      · cases hm
      · have : (ms.any fun m => m.name == n) = true := List.any_eq_true.2 ⟨x, hx, by simp [he]⟩
        simp [this]
    | cons p ps ih =>
      intro h hd k cur ms hms hm
      rw [List.flatMap_cons, List.append_assoc, List.append_assoc, modScan_neutral (h p (by simp)).1,
        modScan_module (h p (by simp)).2 (fun x hx => hms p (by simp) x hx)]
      rw [List.map_cons, List.nodup_cons] at hd
      apply ih (fun q hq => h q (by simp [hq])) hd.2
      · intro q hq x hx
        rcases List.mem_append.1 hx with hx | hx
        · exact hms q (by simp [hq]) x hx
        · simp only [List.mem_singleton] at hx
          subst hx
          intro e
          exact hd.1 (by simp only at e; rw [e]; exact List.mem_map.2 ⟨q, hq, rfl⟩)
      · rcases hm with hm | ⟨x, hx, he⟩
        · rw [List.map_cons, List.mem_cons] at hm
          rcases hm with rfl | hm
          · exact .inr ⟨_, List.mem_append.2 (.inr (List.mem_singleton.2 rfl)), rfl⟩
          · exact .inl hm
        · exact .inr ⟨x, by simp [hx], he⟩
  have := key f.mods hf.1 hf.2.2 0 none [] (by simp) (.inl hn)
  unfold HFile.lines
  rw [List.append_assoc, this]
  rfl

/-- **C81, refusals**: a module without end -/
theorem C81_endless_module {read : Str → Str → Option (List (Str × V))} {compat : V → V → Bool} {mandatory : List (Str × V)} {file : List Str} {f : HFile}
    (hf : f.Shape) {o n : Str} {rest : List Str} (hl : Logical file (f.lines ++ o :: rest)) (ho : ModuleLine o n) (hr : ∀ l ∈ rest, NoModule l) :
    parse read compat mandatory file = none := by
  by_cases hn : n ∈ f.mods.map fun p => p.2.name
  · exact C81_twice_module hf hl ho hn
  · unfold parse
    rw [ST.joinLines_logical hl]
    have key : ∀ (ps : List (List Line × HMod)), (∀ p ∈ ps, (∀ l ∈ p.1, NoModule l) ∧ p.2.Shape) → (ps.map fun p => p.2.name).Nodup →
        n ∉ (ps.map fun p => p.2.name) →
        ∀ (k : Nat) (cur : Option Str) (ms : List Mod), (∀ p ∈ ps, ∀ x ∈ ms, x.name ≠ p.2.name) → (∀ x ∈ ms, x.name ≠ n) →
        ∃ ms' j, modScan k cur ms (ps.flatMap (fun p => p.1 ++ p.2.lines) ++ (f.tail ++ o :: rest)) = some (ms' ++ [⟨n, j, none⟩]) := by
      intro ps
      induction ps with
      | nil =>
        intro _ _ _ k cur ms _ hm
        rw [List.flatMap_nil, List.nil_append, modScan_neutral hf.2.1, modScan, modStep, (modEvent_start _ _).2 ho]
        have : (ms.any fun m => m.name == n) = false := by
          rw [Bool.eq_false_iff]
          intro h
          obtain ⟨x, hx, he⟩ := List.any_eq_true.1 h
          exact hm x hx (by simpa using he)
        simp only [this, Bool.false_eq_true, if_false, Option.bind_some]
        rw [← List.append_nil rest, modScan_neutral hr]
        exact ⟨ms, _, rfl⟩
      | cons p ps ih =>
        intro h hd hnn k cur ms hms hm
        rw [List.flatMap_cons, List.append_assoc, List.append_assoc, modScan_neutral (h p (by simp)).1,
          modScan_module (h p (by simp)).2 (fun x hx => hms p (by simp) x hx)]
        rw [List.map_cons, List.nodup_cons] at hd
        rw [List.map_cons, List.mem_cons, not_or] at hnn
        apply ih (fun q hq => h q (by simp [hq])) hd.2 hnn.2
        · intro q hq x hx
          rcases List.mem_append.1 hx with hx | hx
          · exact hms q (by simp [hq]) x hx
          · simp only [List.mem_singleton] at hx
            subst hx
            intro e
            exact hd.1 (by simp only at e; rw [e]; exact List.mem_map.2 ⟨q, hq, rfl⟩)
        · intro x hx
          rcases List.mem_append.1 hx with hx | hx
          · exact hm x hx
          · simp only [List.mem_singleton] at hx
            subst hx
            exact fun e => hnn.1 e.symm
    obtain ⟨ms', j, h⟩ := key f.mods hf.1 hf.2.2 hn 0 none [] (by simp) (by simp)
    unfold HFile.lines
    rw [List.append_assoc, h, Option.bind_some]
    exact foldlM_none (x := ⟨n, j, none⟩) (by simp) (fun md => rfl) _

end Ccpp.VT
