import Verif.Props.VariableTables
/-! # Lemmas for C81: modules, types, tables -/
namespace Ccpp.VT
open FDecl (Str Blank)
open ST (Words words words_iff words_of codeOf Mod setLast Line)

/-! ## Modules -/

theorem modScan_neutral {ls : List Str} (h : ∀ l ∈ ls, NoModule l) (k : Nat) (cur : Option Str) (ms : List Mod) (rest : List Str) :
    modScan k cur ms (ls ++ rest) = modScan (k + ls.length) cur ms rest := by
  induction ls generalizing k with
  | nil => rfl
  | cons l ls ih =>
    rw [List.cons_append, modScan, modStep, noModule_event (h l (by simp))]
    simp only [Option.bind_some]
    rw [ih (fun x hx => h x (by simp [hx])), List.length_cons, Nat.add_assoc, Nat.add_comm 1]

theorem modScan_module {m : HMod} (hm : m.Shape) {ms : List Mod} (hn : ∀ x ∈ ms, x.name ≠ m.name) (k : Nat) (cur : Option Str) (rest : List Str) :
    modScan k cur ms (m.lines ++ rest) =
      modScan (k + m.lines.length) (some m.name) (ms ++ [⟨m.name, k, some (k + m.lines.length - 1)⟩]) rest := by
  obtain ⟨h1, h2, h3⟩ := hm
  unfold HMod.lines
  have hany : (ms.any fun x => x.name == m.name) = false := by
    rw [Bool.eq_false_iff]
    intro h
    obtain ⟨x, hx, he⟩ := List.any_eq_true.1 h
    exact hn x hx (by simpa using he)
  rw [List.cons_append, modScan, modStep, (modEvent_start _ _).2 h1]
  simp only [hany, Bool.false_eq_true, if_false, Option.bind_some]
  rw [List.append_assoc, modScan_neutral h2]
  have hstop : ∃ t, modEvent m.closing = .stop t ∧ t.getD m.name = m.name := by
    rcases h3 with h | h
    · exact ⟨none, (modEvent_stop _ _).2 h, rfl⟩
    · exact ⟨some m.name, (modEvent_stop _ _).2 h, rfl⟩
  obtain ⟨t, ht, htn⟩ := hstop
  rw [List.cons_append, modScan, modStep, ht]
  simp only [Option.bind_some, htn, if_true, List.nil_append, List.length_cons, List.length_append, List.length_nil]
  rw [ST.setLast_new hn]
  rw [show k + 1 + m.inside.length = k + (m.inside.length + (0 + 1) + 1) - 1 by omega]
  rw [show k + (m.inside.length + (0 + 1) + 1) - 1 + 1 = k + (m.inside.length + (0 + 1) + 1) by omega]

/-- The modules of a file -/
def modsOf : Nat → List (List Line × HMod) → List Mod
  | _, [] => []
  | k, p :: ps => ⟨p.2.name, k + p.1.length, some (k + p.1.length + p.2.lines.length - 1)⟩ :: modsOf (k + p.1.length + p.2.lines.length) ps

theorem modScan_mods {ps : List (List Line × HMod)} (h : ∀ p ∈ ps, (∀ l ∈ p.1, NoModule l) ∧ p.2.Shape) (hd : (ps.map fun p => p.2.name).Nodup)
    {tail : List Str} (ht : ∀ l ∈ tail, NoModule l) (k : Nat) (cur : Option Str) (ms : List Mod)
    (hn : ∀ p ∈ ps, ∀ x ∈ ms, x.name ≠ p.2.name) :
    modScan k cur ms (ps.flatMap (fun p => p.1 ++ p.2.lines) ++ tail) = some (ms ++ modsOf k ps) := by
  induction ps generalizing k cur ms with
  | nil =>
    rw [List.flatMap_nil, List.nil_append, ← List.append_nil tail, modScan_neutral ht]
    simp [modScan, modsOf]
  | cons p ps ih =>
    rw [List.flatMap_cons, List.append_assoc, List.append_assoc, modScan_neutral (h p (by simp)).1,
      modScan_module (h p (by simp)).2 (fun x hx => hn p (by simp) x hx)]
    rw [List.map_cons, List.nodup_cons] at hd
    rw [ih (fun q hq => h q (by simp [hq])) hd.2]
    · simp [modsOf]
    · intro q hq x hx
      rcases List.mem_append.1 hx with hx | hx
      · exact hn q (by simp [hq]) x hx
      · simp only [List.mem_singleton] at hx
        subst hx
        intro e
        exact hd.1 (by simp only at e; rw [e]; exact List.mem_map.2 ⟨q, hq, rfl⟩)

/-! ## Types -/

theorem types_neutral {ls : List Str} (h : ∀ l ∈ ls, Neutral l) (st : Option Str × List Str) : ls.foldlM typeStep st = some st := by
  induction ls with
  | nil => rfl
  | cons l ls ih =>
    rw [List.foldlM_cons, typeStep, neutral_event (h l (by simp))]
    exact ih fun x hx => h x (by simp [hx])

theorem types_items {is : List Item} (h : ∀ i ∈ is, i.Ok) (regs : List Str) (hd : (regs ++ is.flatMap Item.names).Nodup) :
    (is.flatMap Item.lines).foldlM typeStep (none, regs) = some (none, regs ++ is.flatMap Item.names) := by
  induction is generalizing regs with
  | nil => simp
  | cons i is ih =>
    rw [List.flatMap_cons, List.foldlM_append]
    cases i with
    | line l =>
      rw [Item.lines, types_neutral (by intro x hx; rw [List.mem_singleton.1 hx]; exact h (.line l) (by simp))]
      exact ih (fun i hi => h i (by simp [hi])) regs (by simpa [Item.names] using hd)
    | type n o b c =>
      obtain ⟨h1, h2, h3, h4⟩ := h (.type n o b c) (by simp)
      have hn : n ∉ regs := by
        intro hc
        rw [List.nodup_append] at hd
        exact hd.2.2 n hc n (by simp [Item.names]) rfl
      have hstop : ∃ t, typeEvent c = .stop t ∧ t.getD n = n := by
        rcases h4 with h | h
        · exact ⟨none, (typeEvent_stop _ _).2 h, rfl⟩
        · exact ⟨some n, (typeEvent_stop _ _).2 h, rfl⟩
      obtain ⟨t, ht, htn⟩ := hstop
      have : (Item.type n o b c).lines.foldlM typeStep (none, regs) = some (none, regs ++ [n]) := by
        rw [Item.lines, List.foldlM_cons, typeStep, typeDef_event h1 h2]
        simp only [Option.bind_some, Option.isSome_none, Bool.false_or, List.contains_iff_mem, hn, if_false, bind]
        have := types_neutral h3 (some n, regs ++ [n])
        rw [List.foldlM_append, this]
        simp only [bind, Option.bind_some]
        rw [List.foldlM_cons, typeStep, ht]
        simp [htn]
      rw [this]
      simp only [bind, Option.bind_some]
      rw [ih (fun i hi => h i (by simp [hi])) (regs ++ [n]) (by simpa [Item.names] using hd)]
      simp [Item.names]

theorem typeScan_module {m : HMod} (hm : m.Ok) : typeScan (m.opening :: m.inside) = some (none, m.types) := by
  unfold typeScan
  rw [List.foldlM_cons, typeStep, module_noType hm.1.1]
  have := types_items hm.2.1 [] (by simpa [HMod.types] using hm.2.2)
  simpa [HMod.types, HMod.inside] using this

/-! ## The name of a table -/

theorem dropPrefix_iff (k s t : Str) : dropPrefix? k s = some t ↔ s = k ++ t := by
  induction k generalizing s with
  | nil => simp [dropPrefix?, eq_comm]
  | cons x k ih =>
    cases s with
    | nil => simp [dropPrefix?]
    | cons c s =>
      rw [dropPrefix?]
      by_cases h : x = c
      · subst h; simp [ih]
      · rw [if_neg h]
        constructor
        · intro hc; cases hc
        · intro hc; simp only [List.cons_append, List.cons.injEq] at hc; exact absurd hc.1.symm h

theorem dropPrefix_none {k s : Str} (h : ¬k <+: s) : dropPrefix? k s = none := by
  cases e : dropPrefix? k s with
  | none => rfl
  | some t => exact absurd ⟨t, ((dropPrefix_iff k s t).1 e).symm⟩ h

theorem replace_none {k : Str} : ∀ {s : Str} (fuel : Nat), s.length < fuel → ¬k <:+: s → PB.replaceFuel fuel k [] s = s
  | [], fuel, hf, _ => by
    cases fuel with
    | zero => cases hf
    | succ n => rfl
  | c :: s, fuel, hf, h => by
    cases fuel with
    | zero => cases hf
    | succ n =>
      rw [PB.replaceFuel, dropPrefix_none (fun hc => h hc.isInfix)]
      simp only
      rw [replace_none n (by simpa using hf) (fun hc => h (hc.trans (List.suffix_cons c s).isInfix))]

theorem replace_hit {k : Str} (hk : k ≠ []) (b : Str) : ∀ (a : Str) (fuel : Nat), ¬k <:+: a ++ k.dropLast → (a ++ (k ++ b)).length < fuel →
    PB.replaceFuel fuel k [] (a ++ (k ++ b)) = a ++ PB.replaceFuel (fuel - a.length - 1) k [] b
  | [], fuel, _, hf => by
    cases fuel with
    | zero => cases hf
    | succ n =>
      cases hx : k ++ b with
      | nil => exact absurd (List.append_eq_nil_iff.1 hx).1 hk
      | cons c s =>
        rw [List.nil_append, PB.replaceFuel, (dropPrefix_iff k (c :: s) b).2 hx.symm]
        simp
  | x :: a, fuel, h, hf => by
    cases fuel with
    | zero => cases hf
    | succ n =>
      have hnp : ¬k <+: x :: (a ++ (k ++ b)) := by
        rintro ⟨r, hr⟩
        apply h
        have h1 : k <+: x :: (a ++ k.dropLast) ++ (k.getLast hk :: b) := by
          refine ⟨r, ?_⟩
          rw [hr]
          conv => lhs; rw [← List.dropLast_append_getLast hk]
          simp
        exact (List.prefix_of_prefix_length_le h1 (List.prefix_append _ _) (by simp; omega)).isInfix
      rw [List.cons_append, PB.replaceFuel, dropPrefix_none hnp]
      simp only
      rw [replace_hit hk b a n (fun hc => h (hc.trans (List.suffix_cons x _).isInfix)) (by simpa using hf)]
      simp only [List.cons_append, List.length_cons, List.cons.injEq, true_and, List.append_cancel_left_eq]
      congr 1; omega

theorem replace_erased {k s t : Str} (hk : k ≠ []) (h : Erased k s t) : ∀ (fuel : Nat), s.length < fuel → PB.replaceFuel fuel k [] s = t := by
  induction h with
  | done h => intro fuel hf; exact replace_none fuel hf h
  | @hit a b b' h _ ih =>
    intro fuel hf
    rw [replace_hit hk b a fuel h hf, ih]
    have : 0 < k.length := List.length_pos_iff.2 hk
    simp only [List.length_append] at hf
    omega

theorem leftmost {k : Str} (hk : k ≠ []) : ∀ {s : Str}, k <:+: s → ∃ a b, s = a ++ (k ++ b) ∧ ¬k <:+: a ++ k.dropLast
  | [], h => absurd (List.infix_nil.1 h) hk
  | c :: s, h => by
    by_cases hp : k <+: c :: s
    · obtain ⟨b, hb⟩ := hp
      refine ⟨[], b, hb.symm, fun hc => ?_⟩
      have := hc.length_le
      have : 0 < k.length := List.length_pos_iff.2 hk
      simp at *
      omega
    · rcases List.infix_cons_iff.1 h with h | h
      · exact absurd h hp
      · obtain ⟨a, b, e, hn⟩ := leftmost hk h
        refine ⟨c :: a, b, by rw [e]; rfl, fun hc => ?_⟩
        rw [List.cons_append, List.infix_cons_iff] at hc
        rcases hc with hc | hc
        · apply hp
          refine hc.trans ?_
          rw [e]
          refine ⟨k.getLast hk :: b, ?_⟩
          conv => rhs; rw [← List.dropLast_append_getLast hk]
          simp
        · exact hn hc

theorem erased_exists {k : Str} (hk : k ≠ []) (s : Str) : ∃ t, Erased k s t := by
  generalize hn : s.length = n
  induction n using Nat.strongRecOn generalizing s with
  | ind n ih =>
    by_cases h : k <:+: s
    · obtain ⟨a, b, rfl, h2⟩ := leftmost hk h
      have : 0 < k.length := List.length_pos_iff.2 hk
      obtain ⟨t, ht⟩ := ih b.length (by rw [← hn]; simp; omega) b rfl
      exact ⟨_, .hit h2 ht⟩
    · exact ⟨s, .done h⟩

theorem replace_iff {k : Str} (hk : k ≠ []) (s t : Str) : PB.replace k [] s = t ↔ Erased k s t := by
  unfold PB.replace
  constructor
  · intro h
    obtain ⟨t', ht⟩ := erased_exists hk s
    rw [replace_erased hk ht _ (Nat.lt_succ_self _)] at h
    rw [← h]; exact ht
  · intro h; exact replace_erased hk h _ (Nat.lt_succ_self _)

/-! ## Tables -/

theorem hook_iff (l n : Str) : Hook l n ↔ ST.isHook "arg_table_".toList (words l) = true ∧ tableName (words l) = n := by
  unfold Hook
  constructor
  · rintro ⟨w0, w1, w2, ws, hw, h0, h1, h2, h3⟩
    rw [words_of hw]
    refine ⟨?_, (replace_iff (by decide) _ _).2 h3⟩
    simp only [ST.isHook, Bool.and_eq_true, Bool.or_eq_true, beq_iff_eq, PA.inText_iff]
    exact ⟨⟨h0, h1⟩, h2⟩
  · rintro ⟨h, hn⟩
    cases hw : words l with
    | nil => rw [hw] at h; cases h
    | cons w0 r =>
      cases r with
      | nil => rw [hw] at h; cases h
      | cons w1 r =>
        cases r with
        | nil => rw [hw] at h; cases h
        | cons w2 ws =>
          rw [hw] at h hn
          simp only [ST.isHook, Bool.and_eq_true, Bool.or_eq_true, beq_iff_eq, PA.inText_iff] at h
          exact ⟨w0, w1, w2, ws, (words_iff _ _).1 hw, h.1.1, h.1.2, h.2, (replace_iff (by decide) _ _).1 hn⟩

theorem noHook_iff (l : Str) : (∀ n, ¬Hook l n) ↔ ST.isHook "arg_table_".toList (words l) = false := by
  constructor
  · intro h
    rw [Bool.eq_false_iff]
    intro hc
    exact h _ ((hook_iff l _).2 ⟨hc, rfl⟩)
  · intro h n hc
    rw [((hook_iff l n).1 hc).1] at h
    cases h

theorem include_noHook {l : Str} (h : Include l) : ∀ n, ¬Hook l n := by
  obtain ⟨x, hx⟩ := h
  rw [noHook_iff, words_of hx]
  have : PA.inText "\\section".toList "\\htmlinclude".toList = false := by decide
  simp only [ST.isHook, this, Bool.and_false, Bool.false_and]

theorem bang_noHook {l : Str} (h : Words l ["!!".toList]) : ∀ n, ¬Hook l n := by
  rw [noHook_iff, words_of h]; rfl

theorem bang_iff (l : Str) : Words l ["!!".toList] ↔ (¬(l.contains '|' = true) ∧ strip l = "!!".toList) := by
  constructor
  · intro h
    constructor
    · intro hc
      have : '|' ∈ l := by simpa using hc
      rcases h.chars _ this with h | ⟨w, hw, hc⟩
      · exact absurd h (by decide)
      · simp only [List.mem_singleton] at hw
        rw [hw] at hc
        exact absurd hc (by decide)
    · generalize he : ["!!".toList] = ww at h
      cases h with
      | nil _ => cases he
      | @cons a w r ws ha hne hs hr hrest =>
        cases he
        generalize hn : ([] : List Str) = e at hrest
        cases hrest with
        | cons _ _ _ _ _ => cases hn
        | nil hb =>
          exact FDecl.strip_core ha ⟨fun c hc => hs c (List.mem_of_mem_head? hc), fun c hc => hs c (List.mem_of_mem_getLast? hc)⟩ hb
  · rintro ⟨_, h⟩
    obtain ⟨a, b, ha, hb, e⟩ := FDecl.strip_split l
    rw [h] at e
    rw [e]
    refine .cons ha (by decide) (by decide) (fun c hc => hb c (List.mem_of_mem_head? hc)) (.nil hb)

/-! ## Columns -/

theorem splitOn_barJoin : ∀ (ts : List Str), ts ≠ [] → (∀ t ∈ ts, '|' ∉ t) → Chk.splitOn '|' (barJoin ts) = ts
  | [], h, _ => absurd rfl h
  | [t], _, h => Chk.splitOn_item '|' t (h t (by simp))
  | t :: u :: ts, _, h => by
    rw [barJoin, Chk.splitOn_append '|' t _ (h t (by simp)), splitOn_barJoin (u :: ts) (by simp) (fun x hx => h x (by simp [hx]))]
    simp

theorem splitOn_parts (s : Str) : barJoin (Chk.splitOn '|' s) = s ∧ ∀ t ∈ Chk.splitOn '|' s, '|' ∉ t := by
  induction s with
  | nil => exact ⟨rfl, by simp [Chk.splitOn]⟩
  | cons c s ih =>
    rw [Chk.splitOn]
    by_cases h : c = '|'
    · subst h
      rw [if_pos rfl]
      refine ⟨?_, ?_⟩
      · cases hs : Chk.splitOn '|' s with
        | nil => exact absurd hs (Chk.splitOn_ne_nil _ _)
        | cons t ts => rw [barJoin, ← hs, ih.1]; rfl; simp
      · intro t ht
        rcases List.mem_cons.1 ht with rfl | ht
        · simp
        · exact ih.2 t ht
    · rw [if_neg h]
      cases hs : Chk.splitOn '|' s with
      | nil => exact absurd hs (Chk.splitOn_ne_nil _ _)
      | cons t ts =>
        rw [hs] at ih
        refine ⟨?_, ?_⟩
        · cases ts with
          | nil => simp only [barJoin] at ih ⊢; rw [ih.1]
          | cons u ts => simp only [barJoin, List.cons_append] at ih ⊢; rw [ih.1]
        · intro x hx
          rcases List.mem_cons.1 hx with rfl | hx
          · simp only [List.mem_cons, not_or]
            exact ⟨fun e => h e.symm, ih.2 t (by simp)⟩
          · exact ih.2 x (by simp [hx])

theorem oldHeader_iff (l : Str) : OldHeader l ↔
    l.contains '|' = true ∧ ((columns l).all (fun c => validHeader.contains c) && (columns l).contains "standard_name".toList) = true := by
  have hcols : columnNames = validHeader := rfl
  unfold OldHeader columns
  rw [Bool.and_eq_true, List.all_eq_true, hcols]
  constructor
  · rintro ⟨a, cs, z, rfl, h1, h2, c, hc, h3⟩
    rw [splitOn_barJoin _ (by simp) h1]
    have e : (((a :: (cs ++ [z])).drop 1).dropLast).map strip = cs.map strip := by simp
    rw [e]
    refine ⟨?_, ?_, ?_⟩
    · cases hx : cs ++ [z] with
      | nil => simp at hx
      | cons u us => simp [barJoin]
    · intro x hx
      obtain ⟨d, hd, rfl⟩ := List.mem_map.1 hx
      simpa using h2 d hd
    · rw [List.contains_iff_mem]
      exact List.mem_map.2 ⟨c, hc, h3⟩
  · rintro ⟨h0, h1, h2⟩
    obtain ⟨e, hp⟩ := splitOn_parts l
    cases hs : Chk.splitOn '|' l with
    | nil => exact absurd hs (Chk.splitOn_ne_nil _ _)
    | cons a r =>
      rw [hs] at h1 h2 e hp
      cases hr : r.getLast? with
      | none =>
        rw [List.getLast?_eq_none_iff] at hr
        subst hr
        simp at h2
      | some z =>
        obtain ⟨cs, rfl⟩ : ∃ cs, r = cs ++ [z] := by
          rw [List.getLast?_eq_some_iff] at hr; exact hr
        have ec : ((a :: (cs ++ [z])).drop 1).dropLast = cs := by simp
        rw [ec] at h1 h2
        rw [List.contains_iff_mem] at h2
        obtain ⟨c, hc, h3⟩ := List.mem_map.1 h2
        refine ⟨a, cs, z, e.symm, hp, fun d hd => ?_, c, hc, h3⟩
        simpa using h1 (strip d) (List.mem_map.2 ⟨d, hd, rfl⟩)

end Ccpp.VT
