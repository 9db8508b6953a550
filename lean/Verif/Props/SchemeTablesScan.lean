import Verif.Props.SchemeTables
/-! # Lemmas for C79: modules, subroutines, tables -/
namespace Ccpp.ST
open FDecl (Str Blank)

/-! ## Modules -/

theorem item_noModule {m : Str} {i : Item} (h : i.Ok m) : ∀ l ∈ i.lines, NoModule l := by
  cases i with
  | line l => intro x hx; simp only [Item.lines, List.mem_singleton] at hx; subst hx; exact h.1.1
  | other o r =>
    intro x hx
    rcases List.mem_cons.1 hx with rfl | hx
    · exact h.2.1.1
    · exact (h.2.2 x hx).1
  | entry e =>
    obtain ⟨h1, _, h3, h4⟩ := h
    intro x hx
    simp only [Item.lines, List.mem_cons, List.mem_append, List.not_mem_nil, or_false] at hx
    rcases hx with rfl | hx | rfl
    · exact opens_noModule h1
    · exact (h3 x hx).1
    · exact h4.elim closes_noModule closes_noModule

theorem modScan_neutral {ls : List Str} (h : ∀ l ∈ ls, NoModule l) (k : Nat) (cur : Option Str) (ms : List Mod) (rest : List Str) :
    modScan k cur ms (ls ++ rest) = modScan (k + ls.length) cur ms rest := by
  induction ls generalizing k with
  | nil => rfl
  | cons l ls ih =>
    rw [List.cons_append, modScan, modStep, noModule_event (h l (by simp))]
    simp only [Option.bind_some]
    rw [ih (fun x hx => h x (by simp [hx])), List.length_cons, Nat.add_assoc, Nat.add_comm 1]

theorem setLast_new {ms : List Mod} {n : Str} (h : ∀ m ∈ ms, m.name ≠ n) (k j : Nat) :
    setLast n j (ms ++ [⟨n, k, none⟩]) = ms ++ [⟨n, k, some j⟩] := by
  unfold setLast
  rw [List.map_append]
  congr 1
  · rw [List.map_congr_left (g := id)]
    · simp
    · intro m hm; rw [if_neg (h m hm)]; rfl
  · simp

theorem SMod.Ok.shape {m : SMod} (hm : m.Ok) : m.Shape := by
  obtain ⟨h1, h2, _, h3⟩ := hm
  exact ⟨h1, fun l hl => by
    obtain ⟨i, hi, hl⟩ := List.mem_flatMap.1 hl
    exact item_noModule (h2 i hi) l hl, h3⟩

theorem modScan_module {m : SMod} (hm : m.Shape) {ms : List Mod} (hn : ∀ x ∈ ms, x.name ≠ m.name) (k : Nat) (cur : Option Str) (rest : List Str) :
    modScan k cur ms (m.lines ++ rest) =
      modScan (k + m.lines.length) (some m.name) (ms ++ [⟨m.name, k, some (k + m.lines.length - 1)⟩]) rest := by
  obtain ⟨h1, h2, h3⟩ := hm
  unfold SMod.lines
  have hany : (ms.any fun x => x.name == m.name) = false := by
    rw [Bool.eq_false_iff]
    intro h
    obtain ⟨x, hx, he⟩ := List.any_eq_true.1 h
    exact hn x hx (by simpa using he)
  rw [List.cons_append, modScan, modStep, (modEvent_start _ _).2 h1]
  simp only [hany, Bool.false_eq_true, if_false, Option.bind_some]
  rw [List.append_assoc, modScan_neutral h2]
  have hstop : ∃ t, modEvent m.closing = .stop t ∧ t.getD m.name = m.name := by
    rcases h3 with h | h
    · exact ⟨none, (modEvent_stop _ _).2 h, rfl⟩
    · exact ⟨some m.name, (modEvent_stop _ _).2 h, rfl⟩
  obtain ⟨t, ht, htn⟩ := hstop
  rw [List.cons_append, modScan, modStep, ht]
  simp only [Option.bind_some, htn, if_true, List.nil_append, List.length_cons, List.length_append, List.length_nil]
  rw [setLast_new hn]
  rw [show k + 1 + (List.flatMap Item.lines m.items).length = k + ((List.flatMap Item.lines m.items).length + (0 + 1) + 1) - 1 by omega]
  rw [show k + ((List.flatMap Item.lines m.items).length + (0 + 1) + 1) - 1 + 1 = k + ((List.flatMap Item.lines m.items).length + (0 + 1) + 1) by omega]

/-- The modules of a file -/
def modsOf : Nat → List (List Line × SMod) → List Mod
  | _, [] => []
  | k, p :: ps => ⟨p.2.name, k + p.1.length, some (k + p.1.length + p.2.lines.length - 1)⟩ :: modsOf (k + p.1.length + p.2.lines.length) ps

theorem modScan_mods {ps : List (List Line × SMod)} (h : ∀ p ∈ ps, (∀ l ∈ p.1, NoModule l) ∧ p.2.Shape) (hd : (ps.map fun p => p.2.name).Nodup)
    {tail : List Str} (ht : ∀ l ∈ tail, NoModule l) (k : Nat) (cur : Option Str) (ms : List Mod)
    (hn : ∀ p ∈ ps, ∀ x ∈ ms, x.name ≠ p.2.name) :
    modScan k cur ms (ps.flatMap (fun p => p.1 ++ p.2.lines) ++ tail) = some (ms ++ modsOf k ps) := by
  induction ps generalizing k cur ms with
  | nil =>
    rw [List.flatMap_nil, List.nil_append, ← List.append_nil tail, modScan_neutral ht]
    simp [modScan, modsOf]
  | cons p ps ih =>
    rw [List.flatMap_cons, List.append_assoc, List.append_assoc, modScan_neutral (h p (by simp)).1,
      modScan_module (h p (by simp)).2 (fun x hx => hn p (by simp) x hx)]
    rw [List.map_cons, List.nodup_cons] at hd
    rw [ih (fun q hq => h q (by simp [hq])) hd.2]
    · simp [modsOf]
    · intro q hq x hx
      rcases List.mem_append.1 hx with hx | hx
      · exact hn q (by simp [hq]) x hx
      · simp only [List.mem_singleton] at hx
        subst hx
        intro e
        exact hd.1 (by simp only at e; rw [e]; exact List.mem_map.2 ⟨q, hq, rfl⟩)

/-! ## Subroutines -/

theorem neutral_step {l : Str} (h : Neutral l) (m : Str) (k : Nat) (nm : Option Str) (regs : List (Str × Nat × Bool))
    (hc : nm ≠ none ∨ ¬Closes l none) : ∃ nm', (nm ≠ none → nm' ≠ none) ∧ ((∃ n, Opens l n) → nm' ≠ none) ∧
      subStep m k ⟨false, nm, regs⟩ l = some ⟨false, nm', regs⟩ := by
  unfold subStep
  cases e : subEvent l with
  | start n =>
    have ho := (subEvent_start l n).1 e
    have : schemeOf n = none := (schemeOf_none n).2 fun s hs => h.2 n s ho hs
    simp only [Bool.false_eq_true, if_false, this]
    exact ⟨some n, by simp, by simp, rfl⟩
  | stop t =>
    have hcl := (subEvent_stop l t).1 e
    have hno : ¬∃ n, Opens l n := fun ⟨n, hn⟩ => by rw [(subEvent_start l n).2 hn] at e; cases e
    refine ⟨nm, id, fun h => absurd h hno, ?_⟩
    simp only
    cases t with
    | some t => simp
    | none =>
      cases nm with
      | none => exact absurd hcl (hc.resolve_left (by simp))
      | some n => simp
  | bare =>
    have hno : ¬∃ n, Opens l n := fun ⟨n, hn⟩ => by rw [(subEvent_start l n).2 hn] at e; cases e
    exact ⟨nm, id, fun h => absurd h hno, by simp⟩
  | none =>
    have hno : ¬∃ n, Opens l n := fun ⟨n, hn⟩ => by rw [(subEvent_start l n).2 hn] at e; cases e
    exact ⟨nm, id, fun h => absurd h hno, by simp⟩

theorem neutral_lines {ls : List Str} (h : ∀ l ∈ ls, Neutral l) (m : Str) (k : Nat) (nm : Option Str) (hnm : nm ≠ none) (regs : List (Str × Nat × Bool))
    (rest : List Str) : ∃ nm', subScan m k ⟨false, nm, regs⟩ (ls ++ rest) = subScan m (k + ls.length) ⟨false, nm', regs⟩ rest := by
  induction ls generalizing k nm with
  | nil => exact ⟨nm, rfl⟩
  | cons l ls ih =>
    obtain ⟨nm1, h1, _, h2⟩ := neutral_step (h l (by simp)) m k nm regs (.inl hnm)
    obtain ⟨nm2, h3⟩ := ih (fun x hx => h x (by simp [hx])) (k + 1) nm1 (h1 hnm)
    refine ⟨nm2, ?_⟩
    rw [List.cons_append, subScan, h2, Option.bind_some, h3, List.length_cons, Nat.add_assoc, Nat.add_comm 1]

theorem body_lines {n : Str} {ls : List Str} (h : ∀ l ∈ ls, NoModule l ∧ ¬BareEnd l ∧ ¬Closes l none ∧ ¬Closes l (some n)) (m : Str) (k : Nat)
    (regs : List (Str × Nat × Bool)) (rest : List Str) :
    subScan m k ⟨true, some n, regs⟩ (ls ++ rest) = subScan m (k + ls.length) ⟨true, some n, regs⟩ rest := by
  induction ls generalizing k with
  | nil => rfl
  | cons l ls ih =>
    obtain ⟨_, h1, h2, h3⟩ := h l (by simp)
    have : subStep m k ⟨true, some n, regs⟩ l = some ⟨true, some n, regs⟩ := by
      unfold subStep
      cases e : subEvent l with
      | start x => simp
      | stop t =>
        have hcl := (subEvent_stop l t).1 e
        cases t with
        | none => exact absurd hcl h2
        | some t =>
          have htn : n ≠ t := fun c => h3 (by rw [c]; exact hcl)
          simp [htn]
      | bare => exact absurd ((subEvent_bare l).1 e) h1
      | none => rfl
    rw [List.cons_append, subScan, this, Option.bind_some, ih (fun x hx => h x (by simp [hx])), List.length_cons, Nat.add_assoc, Nat.add_comm 1]

/-- The registered subroutines of the parts of a module -/
def regsOf : Nat → List Item → List (Str × Nat × Bool)
  | _, [] => []
  | k, .entry e :: is => (e.name, k, true) :: regsOf (k + (Item.entry e).lines.length) is
  | k, .line l :: is => regsOf (k + (Item.line l).lines.length) is
  | k, .other o r :: is => regsOf (k + (Item.other o r).lines.length) is

theorem entry_scan {m : Str} {e : Entry} (h : (Item.entry e).Ok m) (k : Nat) (nm : Option Str) {regs : List (Str × Nat × Bool)}
    (hn : ∀ r ∈ regs, r.1 ≠ e.name) (rest : List Str) :
    subScan m k ⟨false, nm, regs⟩ ((Item.entry e).lines ++ rest) =
      subScan m (k + (Item.entry e).lines.length) ⟨false, some e.name, regs ++ [(e.name, k, true)]⟩ rest := by
  obtain ⟨h1, ⟨s, hs, he, hts⟩, h3, h4⟩ := h
  have hsch : schemeOf e.name = some m := by rw [he]; exact schemeOf_entry hs hts
  have hany : (regs.any fun r => r.1 == e.name) = false := by
    rw [Bool.eq_false_iff]
    intro h
    obtain ⟨x, hx, hb⟩ := List.any_eq_true.1 h
    exact hn x hx (by simpa using hb)
  have hopen : subStep m k ⟨false, nm, regs⟩ e.opening = some ⟨true, some e.name, regs ++ [(e.name, k, false)]⟩ := by
    unfold subStep
    rw [(subEvent_start _ _).2 h1]
    simp [hsch, hany]
  have hclose : subStep m (k + 1 + e.body.length) ⟨true, some e.name, regs ++ [(e.name, k, false)]⟩ e.closing =
      some ⟨false, some e.name, regs ++ [(e.name, k, true)]⟩ := by
    have hmap : ((regs ++ [(e.name, k, false)]).map fun r => if r.1 = e.name then (r.1, r.2.1, true) else r) = regs ++ [(e.name, k, true)] := by
      rw [List.map_append]
      congr 1
      · rw [List.map_congr_left (g := id)]
        · simp
        · intro r hr; rw [if_neg (hn r hr)]; rfl
      · simp
    unfold subStep
    rcases h4 with h | h <;> rw [(subEvent_stop _ _).2 h] <;>
      simp only [Option.none_or, Option.some_or, Option.bind_some, and_self, if_true, hmap]
  unfold Item.lines
  rw [List.cons_append, subScan, hopen, Option.bind_some, List.append_assoc, body_lines h3, List.cons_append, subScan, hclose, Option.bind_some,
    List.nil_append]
  congr 1
  simp only [List.length_cons, List.length_append, List.length_nil]
  omega

theorem items_scan {m : Str} {is : List Item} (h : ∀ i ∈ is, i.Ok m) (k : Nat) (nm : Option Str) (regs : List (Str × Nat × Bool))
    (hd : (is.flatMap Item.names).Nodup) (hn : ∀ n ∈ is.flatMap Item.names, ∀ r ∈ regs, r.1 ≠ n) :
    ∃ nm', subScan m k ⟨false, nm, regs⟩ (is.flatMap Item.lines) = some ⟨false, nm', regs ++ regsOf k is⟩ := by
  induction is generalizing k nm regs with
  | nil => exact ⟨nm, by simp [subScan, regsOf]⟩
  | cons i is ih =>
    have hi := h i (by simp)
    have hrest := fun k nm => ih (fun x hx => h x (by simp [hx])) k nm
    rw [List.flatMap_cons]
    rw [List.flatMap_cons] at hd hn
    cases i with
    | line l =>
      obtain ⟨nm1, _, _, h1⟩ := neutral_step hi.1 m k nm regs (.inr hi.2)
      obtain ⟨nm2, h2⟩ := hrest (k + 1) nm1 regs (by simpa [Item.names] using hd) (by simpa [Item.names] using hn)
      refine ⟨nm2, ?_⟩
      simp only [Item.lines, List.cons_append, List.nil_append]
      rw [subScan, h1, Option.bind_some, h2]
      rfl
    | other o r =>
      obtain ⟨ho, hno, hr⟩ := hi
      obtain ⟨nm1, _, hs, h1⟩ : ∃ nm', (nm ≠ none → nm' ≠ none) ∧ ((∃ n, Opens o n) → nm' ≠ none) ∧
          subStep m k ⟨false, nm, regs⟩ o = some ⟨false, nm', regs⟩ := by
        refine neutral_step hno m k nm regs (.inr fun hc => ?_)
        obtain ⟨n, hn⟩ := ho
        have := (subEvent_start o n).2 hn
        rw [(subEvent_stop o none).2 hc] at this; cases this
      obtain ⟨nm2, h2⟩ := neutral_lines hr m (k + 1) nm1 (hs ho) regs (is.flatMap Item.lines)
      obtain ⟨nm3, h3⟩ := hrest (k + 1 + r.length) nm2 regs (by simpa [Item.names] using hd) (by simpa [Item.names] using hn)
      refine ⟨nm3, ?_⟩
      simp only [Item.lines, List.cons_append]
      rw [subScan, h1, Option.bind_some, h2, h3, regsOf]
      simp only [Item.lines, List.length_cons]
      rw [show k + 1 + r.length = k + (r.length + 1) by omega]
    | entry e =>
      rw [List.nodup_append] at hd
      have hne : ∀ r ∈ regs, r.1 ≠ e.name := fun r hr => hn e.name (by simp [Item.names]) r hr
      rw [entry_scan hi k nm hne]
      obtain ⟨nm2, h2⟩ := hrest (k + (Item.entry e).lines.length) (some e.name) (regs ++ [(e.name, k, true)]) hd.2.1 (by
        intro n hn' r hr
        rcases List.mem_append.1 hr with hr | hr
        · exact hn n (by simp [hn']) r hr
        · simp only [List.mem_singleton] at hr
          subst hr
          exact hd.2.2 e.name (by simp [Item.names]) n hn')
      exact ⟨nm2, by rw [h2]; simp [regsOf]⟩

/-! ## Tables -/

theorem isHook_iff (n l : Str) : isHook (mark n) (words l) = true ↔ Hook n l := by
  unfold Hook
  constructor
  · intro h
    cases hw : words l with
    | nil => rw [hw] at h; cases h
    | cons w0 r =>
      cases r with
      | nil => rw [hw] at h; cases h
      | cons w1 r =>
        cases r with
        | nil => rw [hw] at h; cases h
        | cons w2 ws =>
          rw [hw] at h
          simp only [isHook, Bool.and_eq_true, Bool.or_eq_true, beq_iff_eq, PA.inText_iff] at h
          exact ⟨w0, w1, w2, ws, (words_iff _ _).1 hw, h.1.1, h.1.2, h.2⟩
  · rintro ⟨w0, w1, w2, ws, hw, h0, h1, h2⟩
    rw [words_of hw]
    simp only [isHook, Bool.and_eq_true, Bool.or_eq_true, beq_iff_eq, PA.inText_iff]
    exact ⟨⟨h0, h1⟩, h2⟩

theorem kindOf_hook (n l : Str) : kindOf (mark n) l = .hook ↔ Hook n l := by
  rw [← isHook_iff]
  unfold kindOf
  by_cases h : isHook (mark n) (words l) = true
  · simp [h]
  · rw [if_neg h]
    constructor
    · intro hc
      by_cases h2 : ((words l).any fun w => PA.inText (mark n) w) = true
      · rw [if_pos h2] at hc; cases hc
      · rw [if_neg h2] at hc; cases hc
    · intro hc; exact absurd hc h

theorem hook_mentions {n l : Str} (h : Hook n l) : Mentions n l := by
  obtain ⟨w0, w1, w2, ws, hw, _, _, h2⟩ := h
  exact ⟨_, w2, hw, by simp, h2⟩

theorem kindOf_other (n l : Str) : kindOf (mark n) l = .other ↔ ¬Mentions n l := by
  have hm : ((words l).any fun w => PA.inText (mark n) w) = true ↔ Mentions n l := by
    rw [List.any_eq_true]
    constructor
    · rintro ⟨w, hw, h⟩
      exact ⟨words l, w, (words_iff _ _).1 rfl, hw, (PA.inText_iff _ _).1 h⟩
    · rintro ⟨ws, w, hws, hw, h⟩
      rw [words_of hws]
      exact ⟨w, hw, (PA.inText_iff _ _).2 h⟩
  have hh : isHook (mark n) (words l) = true → Mentions n l := fun h => hook_mentions ((isHook_iff n l).1 h)
  unfold kindOf
  by_cases h1 : isHook (mark n) (words l) = true
  · rw [if_pos h1]
    exact ⟨fun h => (nomatch h), fun h => absurd (hh h1) h⟩
  · rw [if_neg h1]
    by_cases h2 : ((words l).any fun w => PA.inText (mark n) w) = true
    · rw [if_pos h2]
      exact ⟨fun h => (nomatch h), fun h => absurd (hm.1 h2) h⟩
    · rw [if_neg h2]
      exact ⟨fun _ h => h2 (hm.2 h), fun _ => rfl⟩

theorem findUp_none (n : Str) (rs : List Str) : findUp (mark n) rs = some none ↔ ∀ l ∈ rs, ¬Mentions n l := by
  induction rs with
  | nil => simp [findUp]
  | cons l rs ih =>
    rw [findUp]
    cases e : kindOf (mark n) l with
    | hook => simp only [List.mem_cons, forall_eq_or_imp, reduceCtorEq, Option.some.injEq, false_iff, not_and]; exact fun h => absurd (hook_mentions ((kindOf_hook n l).1 e)) h
    | bad =>
      simp only [List.mem_cons, forall_eq_or_imp, reduceCtorEq, false_iff, not_and]
      intro h
      rw [(kindOf_other n l).2 h] at e; cases e
    | other => simp only [ih, List.mem_cons, forall_eq_or_imp]; exact (and_iff_right ((kindOf_other n l).1 e)).symm

theorem findUp_some (n : Str) (rs : List Str) (i : Nat) :
    findUp (mark n) rs = some (some i) ↔ ∃ a h b, rs = a ++ h :: b ∧ (∀ l ∈ a, ¬Mentions n l) ∧ Hook n h ∧ b.length = i := by
  induction rs with
  | nil => simp [findUp]
  | cons l rs ih =>
    rw [findUp]
    cases e : kindOf (mark n) l with
    | hook =>
      have hh := (kindOf_hook n l).1 e
      simp only [Option.some.injEq]
      constructor
      · intro h; exact ⟨[], l, rs, rfl, by simp, hh, h⟩
      · rintro ⟨a, h, b, he, ha, _, hb⟩
        cases a with
        | nil => cases he; exact hb
        | cons x a => cases he; exact absurd (hook_mentions hh) (ha l (by simp))
    | bad =>
      simp only [reduceCtorEq, false_iff]
      rintro ⟨a, h, b, he, ha, hk, hb⟩
      cases a with
      | nil => cases he; rw [(kindOf_hook n l).2 hk] at e; cases e
      | cons x a => cases he; rw [(kindOf_other n l).2 (ha l (by simp))] at e; cases e
    | other =>
      have ho := (kindOf_other n l).1 e
      simp only [ih]
      constructor
      · rintro ⟨a, h, b, rfl, ha, hk, hb⟩
        exact ⟨l :: a, h, b, rfl, by simpa using ⟨ho, ha⟩, hk, hb⟩
      · rintro ⟨a, h, b, he, ha, hk, hb⟩
        cases a with
        | nil => cases he; exact absurd (hook_mentions hk) ho
        | cons x a => cases he; exact ⟨a, h, b, rfl, fun y hy => ha y (by simp [hy]), hk, hb⟩

theorem Words.chars {s : Str} {ws : List Str} (h : Words s ws) : ∀ c ∈ s, isWs c = true ∨ ∃ w ∈ ws, c ∈ w := by
  induction h with
  | nil hb => intro c hc; exact .inl (hb c hc)
  | cons ha _ _ _ _ ih =>
    intro c hc
    simp only [List.mem_append] at hc
    rcases hc with (hc | hc) | hc
    · exact .inl (ha c hc)
    · exact .inr ⟨_, by simp, hc⟩
    · rcases ih c hc with h | ⟨w, hw, h⟩
      · exact .inl h
      · exact .inr ⟨w, by simp [hw], h⟩

theorem Words.infix {s : Str} {ws : List Str} (h : Words s ws) : ∀ w ∈ ws, w <:+: s := by
  induction h with
  | nil _ => simp
  | @cons a w r ws _ _ _ _ _ ih =>
    intro x hx
    rcases List.mem_cons.1 hx with rfl | hx
    · exact ⟨a, r, rfl⟩
    · exact (ih x hx).trans ⟨a ++ w, [], by simp⟩

theorem comment_code {l w : Str} {ws : List Str} (h : Words l (w :: ws)) (hw : w.head? = some '!') : words (codeOf l) = [] := by
  generalize he : w :: ws = ww at h
  cases h with
  | nil _ => cases he
  | @cons a w' r ws' ha hne hs hr hrest =>
    cases he
    cases w with
    | nil => exact absurd rfl hne
    | cons c w =>
      cases hw
      have : codeOf (a ++ '!' :: w ++ r) = a := by
        unfold codeOf
        rw [List.append_assoc, List.takeWhile_append_of_pos]
        · simp
        · intro c hc
          have := ha c hc
          simp only [bne_iff_ne, ne_eq]
          rintro rfl
          exact absurd this (by decide)
      rw [this]
      exact words_of (.nil ha)

theorem comment_notOpens {l n w : Str} {ws : List Str} (h : Words l (w :: ws)) (hw : w.head? = some '!') : ¬Opens l n := by
  rintro ⟨a, b, c, hc, _⟩
  have := words_of hc
  rw [comment_code h hw] at this
  cases this

theorem lower_infix {a b : Str} (h : a <:+: b) : lower a <:+: lower b := by
  obtain ⟨p, q, rfl⟩ := h
  exact ⟨lower p, lower q, by simp [lower]⟩

theorem bang_noInclude {l : Str} (h : Words l ["!!".toList]) : PA.inText "htmlinclude".toList (lower l) = false := by
  rw [Bool.eq_false_iff]
  intro hc
  rw [PA.inText_iff] at hc
  have : 'h' ∈ lower l := hc.subset (by decide)
  obtain ⟨c, hcl, hc'⟩ := List.mem_map.1 this
  rcases h.chars c hcl with hw | ⟨w, hw, hcw⟩
  · have : ∀ c, isWs c = true → c.toLower ≠ 'h' := by
      intro c hc
      simp only [isWs, Bool.or_eq_true, beq_iff_eq] at hc
      rcases hc with ((((rfl | rfl) | rfl) | rfl) | rfl) | rfl <;> decide
    exact this c hw hc'
  · have hcw : c ∈ ['!', '!'] := by
      simp only [List.mem_singleton] at hw
      rw [hw] at hcw
      exact hcw
    have : c = '!' := by simpa using hcw
    rw [this] at hc'
    exact absurd hc' (by decide)

theorem include_text {l x : Str} (h : Words l ["!!".toList, "\\htmlinclude".toList, x]) : PA.inText "htmlinclude".toList (lower l) = true := by
  rw [PA.inText_iff]
  have h1 := lower_infix (h.infix "\\htmlinclude".toList (by simp))
  have h2 : "htmlinclude".toList <:+: lower "\\htmlinclude".toList := ⟨['\\'], [], by decide⟩
  exact h2.trans h1

/-- The table below its first line, above the line that opens the subroutine -/
theorem tableAt_iff {V : Type} (rd : Option (List (Str × V))) {lines pre post : List Str} {h o n n' : Str} {k : Nat} (hk : lines.take k = pre ++ h :: post)
    (hh : Hook n' h) (hl : (pre ++ h :: post).getLast? = some o) (ho : Opens o n) (vs : List (Str × V)) :
    tableAt rd lines pre.length = some vs ↔
      (∃ e p, post = e :: p ∧ Words e ["!!".toList] ∧ vs = []) ∨
      (∃ i x e p, post = i :: e :: p ∧ Words i ["!!".toList, "\\htmlinclude".toList, x] ∧ Words e ["!!".toList] ∧ rd = some vs) := by
  have hget : ∀ j, j < post.length → lines[pre.length + 1 + j]? = post[j]? := by
    intro j hj
    have h1 : (lines.take k)[pre.length + 1 + j]? = post[j]? := by
      rw [hk, List.getElem?_append_right (by omega), show pre.length + 1 + j - pre.length = j + 1 by omega, List.getElem?_cons_succ]
    have h2 : pre.length + 1 + j < k := by
      have := congrArg List.length hk
      simp only [List.length_take, List.length_append, List.length_cons] at this
      omega
    rw [List.getElem?_take, if_pos h2] at h1
    exact h1
  cases post with
  | nil =>
    exfalso
    simp only [List.getLast?_append, List.getLast?_singleton] at hl
    have hho : h = o := by simpa using hl
    subst hho
    obtain ⟨w0, w1, w2, ws, hw, h0, _⟩ := hh
    exact comment_notOpens hw (by rcases h0 with rfl | rfl <;> rfl) ho
  | cons hl1 rest =>
    have g1 : lines[pre.length + 1]? = some hl1 := hget 0 (by simp)
    unfold tableAt
    rw [g1, Option.bind_some]
    constructor
    · intro ht
      split at ht
      · split at ht
        · next a b x hw =>
          split at ht
          · next hab =>
            obtain ⟨rfl, rfl⟩ := hab
            have hw := (words_iff _ _).1 hw
            obtain ⟨vs', hv, ht⟩ := Option.bind_eq_some_iff.1 ht
            cases rest with
            | nil =>
              exfalso
              simp only [List.getLast?_append, List.getLast?_cons_cons, List.getLast?_singleton] at hl
              have : hl1 = o := by simpa using hl
              subst this
              exact comment_notOpens hw rfl ho
            | cons e p =>
              have g2 : lines[pre.length + 2]? = some e := hget 1 (by simp)
              rw [g2, Option.bind_some] at ht
              split at ht
              · next he =>
                cases ht
                exact .inr ⟨hl1, x, e, p, rfl, hw, (words_iff _ _).1 he, hv⟩
              · cases ht
          · cases ht
        · cases ht
      · split at ht
        · next he => cases ht; exact .inl ⟨hl1, rest, rfl, (words_iff _ _).1 he, rfl⟩
        · cases ht
    · rintro (⟨e, p, he, hw, rfl⟩ | ⟨i, x, e, p, he, hi, hw, hr⟩)
      · cases he
        rw [bang_noInclude hw, if_neg (by simp), if_pos (words_of hw)]
      · cases he
        have g2 : lines[pre.length + 2]? = some e := hget 1 (by simp)
        rw [include_text hi, if_pos rfl, words_of hi]
        simp only [and_self, if_true]
        rw [hr, Option.bind_some, g2, Option.bind_some, if_pos (words_of hw)]

end Ccpp.ST
