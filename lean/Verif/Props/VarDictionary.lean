import Verif.Model.VarDictionary
import Verif.Spec.VarDictionary
import Mathlib.Tactic.ByContra
import Mathlib.Data.Nat.Digits.Lemmas
import Mathlib.Data.List.Nodup
import Mathlib.Data.List.Perm.Subperm
/-!
# C33-C37: variable dictionaries
-/
namespace Ccpp.VD

/-! ## Lookup lemmas -/

theorem has_iff (d : Dict) (s : Str) : d.has s = true ↔ ∃ v, Stores d s v := by
  unfold Dict.has Stores
  rw [List.any_eq_true]
  constructor
  · rintro ⟨⟨k, v⟩, hp, hk⟩
    have : k = s := by simpa using hk
    exact ⟨v, this ▸ hp⟩
  · rintro ⟨v, hv⟩; exact ⟨(s, v), hv, by simp⟩

theorem lacks_iff (d : Dict) (s : Str) : d.has s = false ↔ Lacks d s := by
  rw [← Bool.not_eq_true, has_iff]; unfold Lacks Stores; simp

theorem get?_mem {d : Dict} {s : Str} {v : DVar} (h : d.get? s = some v) : Stores d s v := by
  unfold Dict.get? at h
  rw [Option.map_eq_some_iff] at h
  obtain ⟨⟨k, w⟩, h1, rfl⟩ := h
  have := List.find?_some h1
  have hk : k = s := by simpa using this
  exact hk ▸ List.mem_of_find?_eq_some h1

theorem nodup_fun {l : List (Str × DVar)} (hn : (l.map (·.1)).Nodup) {s : Str} {v w : DVar}
    (h1 : (s, v) ∈ l) (h2 : (s, w) ∈ l) : v = w := by
  induction l with
  | nil => cases h1
  | cons p l ih =>
    rw [List.map_cons, List.nodup_cons] at hn
    rcases List.mem_cons.1 h1 with h1 | h1 <;> rcases List.mem_cons.1 h2 with h2 | h2
    · rw [← h1] at h2; injection h2 with _ h; exact h.symm
    · exact absurd (List.mem_map.2 ⟨_, h2, by rw [← h1]⟩) hn.1
    · exact absurd (List.mem_map.2 ⟨_, h1, by rw [← h2]⟩) hn.1
    · exact ih hn.2 h1 h2

theorem get?_none {d : Dict} {s : Str} : d.get? s = none ↔ Lacks d s := by
  constructor
  · intro h v hv
    unfold Dict.get? at h
    rw [Option.map_eq_none_iff, List.find?_eq_none] at h
    exact h _ hv (by simp)
  · intro h
    cases hg : d.get? s with
    | none => rfl
    | some v => exact absurd (get?_mem hg) (h v)

theorem get?_iff {d : Dict} (hd : OnePerName d) {s : Str} {v : DVar} :
    d.get? s = some v ↔ Stores d s v := by
  refine ⟨get?_mem, fun h => ?_⟩
  cases hg : d.get? s with
  | none => exact absurd h (get?_none.1 hg v)
  | some w => rw [nodup_fun hd.1 (get?_mem hg) h]

theorem set_keys (d : Dict) (s : Str) (v : DVar) :
    (d.set s v).entries.map (·.1) = d.entries.map (·.1) := by
  unfold Dict.set
  rw [List.map_map]
  apply List.map_congr_left
  intro p _
  simp only [Function.comp_apply]
  split
  · rename_i h; simpa using (eq_of_beq h).symm
  · rfl

theorem set_stores {d : Dict} {s t : Str} {v w : DVar} :
    Stores (d.set s v) t w ↔ (t = s ∧ w = v ∧ d.has s = true) ∨ (t ≠ s ∧ Stores d t w) := by
  unfold Dict.set Stores
  simp only [List.mem_map]
  constructor
  · rintro ⟨⟨k, u⟩, hm, hp⟩
    split at hp
    · rename_i hk
      injection hp with h1 h2
      refine Or.inl ⟨h1.symm, h2.symm, (has_iff d s).2 ⟨u, ?_⟩⟩
      have : k = s := eq_of_beq hk
      exact this ▸ hm
    · rename_i hk
      injection hp with h1 h2
      subst h1; subst h2
      exact Or.inr ⟨fun e => hk (by rw [e]; simp), hm⟩
  · rintro (⟨rfl, rfl, h⟩ | ⟨h, hm⟩)
    · obtain ⟨u, hu⟩ := (has_iff d t).1 h
      exact ⟨(t, u), hu, by simp⟩
    · exact ⟨(t, w), hm, by simp [h]⟩

/-! ## What add does -/

theorem adjustIntent_ok {c v c' : DVar} (h : adjustIntent c v = .ok c') :
    ∃ i, c' = { c with intent := some i } := by
  unfold adjustIntent at h
  simp only at h
  split at h
  · cases h
  · split at h <;> injection h with h <;> exact ⟨_, h.symm⟩

/-- The compatibility part either leaves the dictionary alone or widens the intent of the entry. -/
theorem checkExisting_ok {cmp fl d v d'} (h : checkExisting cmp fl d v = .ok d') :
    d' = d ∨ ∃ c, d.findHere v.std = some c ∧ fl.adjust = true ∧
      ((c.intent = some .in ∧ (v.intent = some .inout ∨ v.intent = some .out)) ∨
        (c.intent = some .out ∧ (v.intent = some .inout ∨ v.intent = some .in))) ∧
      (c.prot = true → v.intent = some .in) ∧
      d' = d.set v.std { c with intent := some .inout } := by
  unfold checkExisting at h
  split at h
  · injection h with h; exact Or.inl h.symm
  · rename_i c hc
    split at h
    · cases h
    · cases h
    · split at h
      · injection h with h; exact Or.inl h.symm
      · split at h
        · rename_i hadj
          split at h
          · rename_i hint
            split at h
            · cases h
            · rename_i c' hc'
              injection h with h
              refine Or.inr ⟨c, hc, hadj, hint, ?_, ?_⟩
              · intro hp
                unfold adjustIntent at hc'
                simp only [hp] at hc'
                rcases hint with ⟨h1, h2 | h2⟩ | ⟨h1, h2 | h2⟩
                · simp [h2] at hc'
                · simp [h2] at hc'
                · simp [h2] at hc'
                · exact h2
              · rw [← h]
                congr 1
                unfold adjustIntent at hc'
                simp only at hc'
                split at hc'
                · cases hc'
                · rcases hint with ⟨h1, h2 | h2⟩ | ⟨h1, h2 | h2⟩ <;>
                    (rw [h1, h2] at hc'; simp at hc'; exact hc'.symm)
          · injection h with h; exact Or.inl h.symm
        · cases h

theorem localPart_ok {fl d v v'} (h : localPart fl d v = .ok v') :
    ∃ n, v' = { v with lname := n } ∧ (fl.genUnique = false → n = v.lname) ∧
      (d.findLocal v.lname = .ok none → n = v.lname) := by
  unfold localPart at h
  split at h
  · cases h
  · injection h with h; exact ⟨v.lname, h ▸ rfl, fun _ => rfl, fun _ => rfl⟩
  · rename_i hl
    split at h
    · rename_i hg
      split at h
      · cases h
      · rename_i n _
        injection h with h
        exact ⟨n, h.symm, fun e => (by rw [e] at hg; cases hg), fun e => (by rw [e] at hl; cases hl)⟩
    · split at h
      · cases h
      · injection h with h; exact ⟨v.lname, h ▸ rfl, fun _ => rfl, fun _ => rfl⟩

theorem findHere_std {d : Dict} (hd : OnePerName d) {s : Str} {c : DVar}
    (h : d.findHere s = some c) : c.std = s := by
  unfold Dict.findHere at h
  split at h
  · rename_i hs; injection h with h; subst h; exact hs.symm
  · exact hd.2 _ (get?_mem h)

theorem findHere_ne {d : Dict} {s : Str} (hs : s ≠ constName) : d.findHere s = d.get? s := by
  unfold Dict.findHere; rw [if_neg hs]

theorem adjusted_ne_const {d : Dict} {s : Str} {c : DVar} (h : d.findHere s = some c)
    (hi : c.intent = some .in ∨ c.intent = some .out) : s ≠ constName := by
  intro e
  unfold Dict.findHere at h
  rw [if_pos e] at h
  injection h with h
  subst h
  rcases hi with h | h <;> simp [constVar] at h

theorem set_one {d : Dict} (hd : OnePerName d) {s : Str} {v : DVar} (hv : v.std = s) :
    OnePerName (d.set s v) := by
  refine ⟨by rw [set_keys]; exact hd.1, ?_⟩
  rintro ⟨k, w⟩ hp
  rcases set_stores.1 hp with ⟨rfl, rfl, -⟩ | ⟨-, h⟩
  · exact hv
  · exact hd.2 _ h

theorem insert_one {d : Dict} (hd : OnePerName d) {v : DVar} {o : Str} :
    OnePerName (insert d v o) := by
  unfold insert OnePerName
  simp only
  split
  · exact hd
  · rename_i h
    have hl : Lacks d v.std := (lacks_iff d v.std).1 (by simpa using h)
    refine ⟨?_, ?_⟩
    · rw [List.map_append, List.nodup_append]
      refine ⟨hd.1, by simp, ?_⟩
      intro a ha b hb e
      subst e
      simp at hb
      subst hb
      obtain ⟨⟨k, w⟩, hm, hk⟩ := List.mem_map.1 ha
      exact hl w (by simp at hk; exact hk ▸ hm)
    · intro p hp
      rcases List.mem_append.1 hp with hp | hp
      · exact hd.2 p hp
      · simp at hp; rw [hp]

theorem checkExisting_one {cmp fl d v d'} (hd : OnePerName d)
    (h : checkExisting cmp fl d v = .ok d') : OnePerName d' := by
  rcases checkExisting_ok h with rfl | ⟨c, hc, -, -, -, rfl⟩
  · exact hd
  · exact set_one hd (v := { c with intent := some .inout })
      (show c.std = v.std from findHere_std hd hc)

theorem add_one {cmp fl d v} (hd : OnePerName d) : OnePerName (add cmp fl d v).1 := by
  unfold add
  split
  · exact hd
  · split
    · exact hd
    · rename_i d1 h1
      have hd1 := checkExisting_one hd h1
      split
      · exact hd1
      · exact insert_one hd1

theorem remove_one {d : Dict} (hd : OnePerName d) (s : Str) : OnePerName (remove d s) := by
  unfold remove OnePerName
  refine ⟨?_, fun p hp => hd.2 p (List.mem_filter.1 hp).1⟩
  exact List.Nodup.sublist (List.filter_sublist.map _) hd.1

/-! ## C33 -/

/-- C33, first part: whatever the history of additions and removals (including ones that raise),
there is at most one variable per standard name, stored under its own name. -/
theorem one_per_name (cmp : DVar → DVar → Except String Bool) (ops : List Op) :
    OnePerName (runOps cmp Dict.empty ops) := by
  suffices h : ∀ d, OnePerName d → OnePerName (runOps cmp d ops) from
    h _ ⟨by simp [Dict.empty], by simp [Dict.empty]⟩
  induction ops with
  | nil => exact fun d h => h
  | cons o ops ih =>
    intro d h
    apply ih
    cases o with
    | add fl v => exact add_one h
    | remove s => exact remove_one h s

/-- C33, second part: adding a name that is present raises and changes nothing unless exists_ok. -/
theorem add_present_raises (cmp) (fl : Flags) (d : Dict) (v c : DVar) (hc : Stores d v.std c)
    (he : fl.existsOk = false) : ∃ e, add cmp fl d v = (d, some e) := by
  refine ⟨"duplicate standard name", ?_⟩
  unfold add
  rw [if_pos]
  rw [(has_iff d v.std).2 ⟨c, hc⟩, he]; rfl

/-- C33, third part: with exists_ok the names and all other entries are unchanged, and the entry
itself changes at most by widening its intent. -/
theorem add_present_keeps (cmp) (fl : Flags) (d : Dict) (hd : OnePerName d) (v c : DVar)
    (hc : Stores d v.std c) :
    let d' := (add cmp fl d v).1
    d'.entries.map (·.1) = d.entries.map (·.1) ∧
    (∀ s, s ≠ v.std → ∀ w, Stores d' s w ↔ Stores d s w) ∧
    ∃ i, Stores d' v.std { c with intent := i } ∧ Widens c.intent i := by
  have hhas : d.has v.std = true := (has_iff d v.std).2 ⟨c, hc⟩
  have triv : d.entries.map (·.1) = d.entries.map (·.1) ∧
      (∀ s, s ≠ v.std → ∀ w, Stores d s w ↔ Stores d s w) ∧
      ∃ i, Stores d v.std { c with intent := i } ∧ Widens c.intent i :=
    ⟨rfl, fun _ _ _ => Iff.rfl, c.intent, hc, Or.inl rfl⟩
  have hmain : ∀ d1, checkExisting cmp fl d v = .ok d1 →
      d1.entries.map (·.1) = d.entries.map (·.1) ∧
      (∀ s, s ≠ v.std → ∀ w, Stores d1 s w ↔ Stores d s w) ∧
      ∃ i, Stores d1 v.std { c with intent := i } ∧ Widens c.intent i := by
    intro d1 h1
    rcases checkExisting_ok h1 with rfl | ⟨c', hc', -, hi, -, rfl⟩
    · exact triv
    · have hne := adjusted_ne_const hc' (hi.imp (·.1) (·.1))
      rw [findHere_ne hne] at hc'
      have : c' = c := nodup_fun hd.1 (get?_mem hc') hc
      subst this
      refine ⟨set_keys .., ?_, some .inout, ?_, Or.inr ⟨hi.imp (·.1) (·.1), rfl⟩⟩
      · intro s hs w
        rw [set_stores]
        constructor
        · rintro (⟨h, -⟩ | ⟨-, h⟩)
          · exact absurd h hs
          · exact h
        · exact fun h => Or.inr ⟨hs, h⟩
      · exact set_stores.2 (Or.inl ⟨rfl, rfl, hhas⟩)
  intro d'
  simp only [d', add]
  split
  · exact triv
  · split
    · exact triv
    · rename_i d1 h1
      have := hmain d1 h1
      split
      · exact this
      · rename_i v' hv'
        have hh : d1.has v'.std = true := by
          obtain ⟨n, rfl, -⟩ := localPart_ok hv'
          obtain ⟨i, hi, -⟩ := this.2.2
          exact (has_iff d1 v.std).2 ⟨_, hi⟩
        have he : (insert d1 v' v.lname).entries = d1.entries := by
          unfold insert; simp only [hh, if_true]
        unfold Stores at *
        rw [he]
        exact this

/-- C33, fourth part: a successful addition of an absent name stores the variable (under another
local name only with gen_unique), keeps everything else, and find_variable then returns it. -/
theorem add_absent (cmp) (fl : Flags) (d : Dict) (v : DVar) (hl : Lacks d v.std)
    (hne : v.std ≠ constName) (hok : (add cmp fl d v).2 = none) :
    ∃ n, (n = v.lname ∨ fl.genUnique = true) ∧
      (add cmp fl d v).1.entries = d.entries ++ [(v.std, { v with lname := n })] ∧
      ∀ ps any, find (add cmp fl d v).1 ps v.std any = some { v with lname := n } := by
  have hhas := (lacks_iff d v.std).2 hl
  have hce : checkExisting cmp fl d v = .ok d := by
    unfold checkExisting
    rw [findHere_ne hne, get?_none.2 hl]
  have key : ∃ n, (n = v.lname ∨ fl.genUnique = true) ∧
      (add cmp fl d v).1.entries = d.entries ++ [(v.std, { v with lname := n })] := by
    unfold add at hok ⊢
    rw [hhas, hce] at hok ⊢
    simp only [Bool.false_and, Bool.false_eq_true, if_false] at hok ⊢
    split at hok
    · cases hok
    · rename_i v' hv'
      obtain ⟨n, rfl, hn, -⟩ := localPart_ok hv'
      refine ⟨n, ?_, ?_⟩
      · cases hg : fl.genUnique with
        | false => exact Or.inl (hn hg)
        | true => exact Or.inr rfl
      · unfold insert; simp [hhas]
  obtain ⟨n, h1, h2⟩ := key
  refine ⟨n, h1, h2, fun ps any => ?_⟩
  have hst : Stores (add cmp fl d v).1 v.std { v with lname := n } := by unfold Stores; rw [h2]; simp
  rw [find.eq_def]; simp only
  rw [if_neg hne, if_pos ((has_iff _ _).2 ⟨_, hst⟩)]
  unfold Dict.get?
  rw [h2, List.find?_append]
  have : List.find? (fun p => p.1 == v.std) d.entries = none := by
    rw [List.find?_eq_none]
    rintro ⟨k, w⟩ hp hk
    have : k = v.std := eq_of_beq hk
    exact hl w (this ▸ hp)
  rw [this]; simp

/-- C33, fifth part: removal removes exactly the named variable. -/
theorem remove_exact (d : Dict) (s t : Str) (v : DVar) :
    Stores (remove d s) t v ↔ t ≠ s ∧ Stores d t v := by
  unfold remove Stores
  rw [List.mem_filter]
  simp [and_comm]

/-- C33, sixth part: lookup in a dictionary of a history returns exactly the stored entry, except for
the constant name. -/
theorem find_exact_partial (cmp) (ops : List Op) (s : Str) (hs : s ≠ constName) (v : DVar) :
    find (runOps cmp Dict.empty ops) [] s true = some v ↔ Stores (runOps cmp Dict.empty ops) s v := by
  have hd := one_per_name cmp ops
  generalize runOps cmp Dict.empty ops = d at *
  rw [find, if_neg hs]
  rw [← get?_iff hd]
  split
  · rfl
  · rename_i h
    have := get?_none.2 ((lacks_iff d s).1 (by simpa using h))
    simp [this]

def yes : DVar → DVar → Except String Bool := fun _ _ => .ok true
def v0 : DVar := ⟨"temp".toList, "T".toList, some .in, false, 7⟩
def v1 : DVar := ⟨"qv".toList, "t".toList, some .out, false, 8⟩
def strict : Flags := ⟨false, false, false⟩
def lax : Flags := ⟨true, true, true⟩

/-- C33 is violated by the code in two ways: a stored variable called `ccpp_constant_one` is not the
one find_variable returns; and a variable that was removed cannot be added again, since the local name
register still points to it. -/
theorem C33_violated :
    (∃ v, Stores (runOps yes Dict.empty [.add strict v]) v.std v ∧
      find (runOps yes Dict.empty [.add strict v]) [] v.std true ≠ some v) ∧
    (∃ v, (add yes strict Dict.empty v).2 = none ∧
      Lacks (runOps yes Dict.empty [.add strict v, .remove v.std]) v.std ∧
      (add yes strict (runOps yes Dict.empty [.add strict v, .remove v.std]) v).2 ≠ none) := by
  refine ⟨⟨⟨constName, "one".toList, none, false, 3⟩, ?_, ?_⟩, ⟨v0, ?_, ?_, ?_⟩⟩
  · unfold Stores; decide +kernel
  · rw [find]; decide +kernel
  · decide +kernel
  · intro v hv; revert hv; 
    have : (runOps yes Dict.empty [.add strict v0, .remove v0.std]).entries = [] := by decide +kernel
    rw [this]; simp
  · decide +kernel

example : ∃ d, d = runOps yes Dict.empty [.add strict v0, .add lax v1, .remove v0.std] ∧
    d.entries.map (·.1) = ["qv".toList] := ⟨_, rfl, by decide +kernel⟩

example : (runOps yes Dict.empty [.add lax v0, .add lax { v0 with intent := some .out }]).entries =
    [("temp".toList, { v0 with intent := some .inout })] := by decide +kernel

/-! ## C34 -/

/-- C34: with any_scope, lookup returns the entry of the innermost dictionary that has the name. -/
theorem find_innermost (s : Str) (hs : s ≠ constName) (ps : List Dict) :
    ∀ d, (∀ e ∈ d :: ps, OnePerName e) → ∀ v,
      (find d ps s true = some v ↔ Innermost (d :: ps) s v) := by
  induction ps with
  | nil =>
    intro d hd v
    rw [find, if_neg hs]
    unfold Innermost
    split
    · rw [get?_iff (hd d (by simp))]
      constructor
      · exact fun h => ⟨[], d, [], rfl, by simp, h⟩
      · rintro ⟨inner, e, outer, h, -, h3⟩
        cases inner with
        | nil => injection h with h; exact h ▸ h3
        | cons a l => injection h with _ h; cases l <;> cases h
    · rename_i h
      have hl := (lacks_iff d s).1 (by simpa using h)
      simp only [if_true]
      constructor
      · intro h; cases h
      · rintro ⟨inner, e, outer, h, -, h3⟩
        cases inner with
        | nil => injection h with h; exact absurd (h ▸ h3) (hl v)
        | cons a l => injection h with _ h; cases l <;> cases h
  | cons p ps ih =>
    intro d hd v
    rw [find, if_neg hs]
    split
    · rename_i hh
      obtain ⟨w, hw⟩ := (has_iff d s).1 hh
      rw [get?_iff (hd d (by simp))]
      unfold Innermost
      constructor
      · exact fun h => ⟨[], d, p :: ps, rfl, by simp, h⟩
      · rintro ⟨inner, e, outer, h, h2, h3⟩
        cases inner with
        | nil => injection h with h; exact h ▸ h3
        | cons a l =>
          injection h with h _
          exact absurd (h ▸ hw) (h2 a (by simp) w)
    · rename_i h
      have hl := (lacks_iff d s).1 (by simpa using h)
      simp only [if_true]
      rw [ih p (fun e he => hd e (List.mem_cons_of_mem _ he))]
      unfold Innermost
      constructor
      · rintro ⟨inner, e, outer, h1, h2, h3⟩
        refine ⟨d :: inner, e, outer, by rw [h1]; rfl, ?_, h3⟩
        intro a ha
        rcases List.mem_cons.1 ha with rfl | ha
        · exact hl
        · exact h2 a ha
      · rintro ⟨inner, e, outer, h1, h2, h3⟩
        cases inner with
        | nil => injection h1 with h1; exact absurd (h1 ▸ h3) (hl v)
        | cons a l =>
          injection h1 with _ h1
          exact ⟨l, e, outer, h1, fun x hx => h2 x (List.mem_cons_of_mem _ hx), h3⟩

/-- C34: None exactly if no dictionary of the chain has the name. -/
theorem find_none (s : Str) (hs : s ≠ constName) (ps : List Dict) :
    ∀ d, find d ps s true = none ↔ ∀ e ∈ d :: ps, Lacks e s := by
  induction ps with
  | nil =>
    intro d
    rw [find, if_neg hs]
    split
    · simp [get?_none]
    · rename_i h
      have hl := (lacks_iff d s).1 (by simpa using h)
      simp [hl]
  | cons p ps ih =>
    intro d
    rw [find, if_neg hs]
    split
    · rename_i h
      obtain ⟨w, hw⟩ := (has_iff d s).1 h
      rw [get?_none]
      exact ⟨fun h => absurd hw (h w), fun h => h d (by simp)⟩
    · rename_i h
      have hl := (lacks_iff d s).1 (by simpa using h)
      simp only [if_true]
      rw [ih p]
      constructor
      · intro h e he
        rcases List.mem_cons.1 he with rfl | he
        · exact hl
        · exact h e he
      · exact fun h e he => h e (List.mem_cons_of_mem _ he)

/-- C34: without any_scope only the dictionary itself is consulted. -/
theorem find_own_scope (s : Str) (hs : s ≠ constName) (d : Dict) (hd : OnePerName d) (ps : List Dict)
    (v : DVar) : find d ps s false = some v ↔ Stores d s v := by
  rw [find.eq_def]; simp only
  rw [if_neg hs, ← get?_iff hd]
  split
  · rfl
  · rename_i h
    have hl := get?_none.2 ((lacks_iff d s).1 (by simpa using h))
    simp [hl]

/-- C34 for the constant: found in every dictionary. -/
theorem find_const (d : Dict) (ps : List Dict) (any : Bool) : find d ps constName any = some constVar := by
  rw [find.eq_def]; simp only [if_true]

/-- C34 is violated for the constant: the result is not None although no dictionary has it. -/
theorem C34_violated : ∃ d s, Lacks d s ∧ find d [] s true ≠ none :=
  ⟨Dict.empty, constName, by simp [Lacks, Dict.empty], by rw [find_const]; simp⟩

def chainA : Dict := (add yes strict Dict.empty v0).1
def chainB : Dict := (add yes strict Dict.empty v1).1

example : OnePerName chainA ∧ OnePerName chainB ∧ v1.std ≠ constName ∧
    find chainA [chainB] v1.std true = some v1 := by
  refine ⟨add_one ⟨by simp [Dict.empty], by simp [Dict.empty]⟩,
    add_one ⟨by simp [Dict.empty], by simp [Dict.empty]⟩, by decide +kernel, ?_⟩
  rw [find, find]; decide +kernel

/-! ## C35 -/

theorem lookupName_none {l : List (Str × Str)} {k : Str} : lookupName l k = none ↔ k ∉ l.map (·.1) := by
  unfold lookupName
  rw [Option.map_eq_none_iff, List.find?_eq_none]
  constructor
  · intro h hm
    obtain ⟨p, hp, rfl⟩ := List.mem_map.1 hm
    exact h p hp (by simp)
  · intro h p hp hk
    exact h (List.mem_map.2 ⟨p, hp, eq_of_beq hk⟩)

/-- Every stored variable's local name is registered. -/
def Registered (d : Dict) : Prop := ∀ p ∈ d.entries, lower p.2.lname ∈ d.lnames.map (·.1)

theorem findLocal_none {d : Dict} {l : Str} (h : d.findLocal l = .ok none) :
    lower l ∉ d.lnames.map (·.1) := by
  rw [← lookupName_none]
  unfold Dict.findLocal at h
  split at h
  · assumption
  · split at h <;> cases h

/-- C35, the part that holds: additions without exists_ok and gen_unique (which raise on a
collision) keep the local names of a dictionary distinct, whatever the history of additions and
removals.  Missing: additions with gen_unique or exists_ok, for which it is false. -/
theorem distinct_local_partial (cmp) (ops : List Op)
    (hops : ∀ o ∈ ops, match o with
      | .add fl _ => fl.existsOk = false ∧ fl.genUnique = false
      | .remove _ => True) :
    DistinctLocal (runOps cmp Dict.empty ops) := by
  suffices h : ∀ d, DistinctLocal d ∧ Registered d →
      DistinctLocal (runOps cmp d ops) ∧ Registered (runOps cmp d ops) from
    (h _ ⟨by simp [DistinctLocal, Dict.empty], by simp [Registered, Dict.empty]⟩).1
  induction ops with
  | nil => exact fun d h => h
  | cons o ops ih =>
    intro d h
    apply ih (fun o ho => hops o (List.mem_cons_of_mem _ ho))
    have ho := hops o (by simp)
    cases o with
    | remove s =>
      refine ⟨List.Nodup.sublist (List.filter_sublist.map _) h.1, ?_⟩
      exact fun p hp => h.2 p (List.mem_filter.1 hp).1
    | add fl v =>
      obtain ⟨he, hg⟩ := ho
      show DistinctLocal (add cmp fl d v).1 ∧ Registered (add cmp fl d v).1
      unfold add
      split
      · exact h
      · rename_i hh
        have hhas : d.has v.std = false := by rw [he] at hh; simpa using hh
        split
        · exact h
        · rename_i d1 hd1
          have hd1' : d1 = d := by
            rcases checkExisting_ok hd1 with rfl | ⟨c, hc, -, hi, -, -⟩
            · rfl
            · have hne := adjusted_ne_const hc (hi.imp (·.1) (·.1))
              rw [findHere_ne hne] at hc
              exact absurd (get?_mem hc) ((lacks_iff d v.std).1 hhas c)
          subst hd1'
          split
          · exact h
          · rename_i v' hv'
            have hfl : d1.findLocal v.lname = .ok none := by
              unfold localPart at hv'
              split at hv'
              · cases hv'
              · assumption
              · rw [he, hg] at hv'; simp at hv'
            obtain ⟨n, rfl, hn, -⟩ := localPart_ok hv'
            have hn := hn hg
            have hnew := findLocal_none hfl
            have hlk := lookupName_none.2 hnew
            unfold insert DistinctLocal Registered
            simp only [hhas, hlk, hn]
            simp only [Bool.false_eq_true, if_false, Option.isSome_none]
            constructor
            · rw [List.map_append, List.nodup_append]
              refine ⟨h.1, by simp, ?_⟩
              intro a ha b hb e
              subst e
              simp only [List.map_cons, List.map_nil, List.mem_singleton] at hb
              subst hb
              obtain ⟨p, hp, hpe⟩ := List.mem_map.1 ha
              exact hnew (hpe ▸ h.2 p hp)
            · intro p hp
              rw [List.map_append, List.mem_append]
              rcases List.mem_append.1 hp with hp | hp
              · exact Or.inl (h.2 p hp)
              · rw [List.mem_singleton] at hp
                subst hp
                exact Or.inr (by simp)

/-- Three variables with one local name. -/
def tri (s : String) (i : Intent) : DVar := ⟨s.toList, "x".toList, some i, false, 1⟩

/-- C35 is violated by the code in three ways: with gen_unique the generated name is not registered,
so a third variable gets the same one as the second; a name differing only by case is handed out
again; and with exists_ok (the flag used by CallList.add_vars) a collision with a different variable
is let through unchanged. -/
theorem C35_violated :
    (∃ a b c, ∃ d, callAddAll yes ⟨false, true, false⟩ Dict.empty [a, b, c] = some d ∧
      d.entries.map (fun p => p.2.lname) = ["x".toList, "x1".toList, "x1".toList]) ∧
    (∃ a b, ∃ d, callAddAll yes ⟨false, true, false⟩ Dict.empty [a, b] = some d ∧
      d.entries.map (fun p => p.2.lname) = ["X".toList, "X".toList]) ∧
    (∃ a b, ∃ d, callAddAll yes ⟨true, false, true⟩ Dict.empty [a, b] = some d ∧
      d.entries.map (fun p => p.2.lname) = ["x".toList, "x".toList]) := by
  refine ⟨⟨tri "a" .in, tri "b" .in, tri "c" .in, ?_⟩, ⟨{ tri "a" .in with lname := "X".toList },
    { tri "b" .in with lname := "X".toList }, ?_⟩, ⟨tri "a" .in, tri "b" .in, ?_⟩⟩
  · exact ⟨_, rfl, by decide +kernel⟩
  · exact ⟨_, rfl, by decide +kernel⟩
  · exact ⟨_, rfl, by decide +kernel⟩

example : (runOps yes Dict.empty [.add strict v0, .add strict v1, .add strict { v1 with lname := "q".toList }]).entries.map
    (fun p => p.2.lname) = ["T".toList, "q".toList] := by decide +kernel

/-! ## C36 -/

theorem merged_single (i : Intent) : merged [i] = i := by cases i <;> decide

theorem usesOf_append (s : Str) (a b : List DVar) : usesOf s (a ++ b) = usesOf s a ++ usesOf s b := by
  simp [usesOf]

/-- Merging one more use. -/
theorem merged_snoc {us : List Intent} (hne : us ≠ []) (i : Intent) :
    merged (us ++ [i]) = if merged us = i then i else .inout := by
  obtain ⟨a, rest, rfl⟩ := List.exists_cons_of_ne_nil hne
  unfold merged
  by_cases h1 : ∀ j ∈ a :: rest, j = Intent.in
  · have ha := h1 a (by simp)
    rw [if_pos h1]
    cases i with
    | «in» =>
      rw [if_pos]; rfl
      intro j hj
      rcases List.mem_append.1 hj with hj | hj
      · exact h1 j hj
      · simpa using hj
    | out =>
      rw [if_neg (fun h => by simpa using h .out (by simp)),
        if_neg (fun h => by have := h a (by simp); rw [ha] at this; cases this)]
      rfl
    | inout =>
      rw [if_neg (fun h => by simpa using h .inout (by simp)),
        if_neg (fun h => by simpa using h .inout (by simp))]
      rfl
  · rw [if_neg h1, if_neg (fun h => h1 fun j hj => h j (List.mem_append_left _ hj))]
    by_cases h2 : ∀ j ∈ a :: rest, j = Intent.out
    · rw [if_pos h2]
      cases i with
      | out =>
        rw [if_pos]; rfl
        intro j hj
        rcases List.mem_append.1 hj with hj | hj
        · exact h2 j hj
        · simpa using hj
      | «in» => rw [if_neg (fun h => by simpa using h .in (by simp))]; rfl
      | inout => rw [if_neg (fun h => by simpa using h .inout (by simp))]; rfl
    · rw [if_neg h2, if_neg (fun h => h2 fun j hj => h j (List.mem_append_left _ hj))]
      cases i <;> rfl

/-- The variable a call list adds for `v`. -/
def withIntent (v : DVar) : DVar := if v.intent = none then { v with intent := some .in } else v

theorem withIntent_intent (v : DVar) : (withIntent v).intent = some (v.intent.getD .in) := by
  unfold withIntent
  split
  · rename_i h; simp [h]
  · rename_i h
    cases hv : v.intent with
    | none => exact absurd hv h
    | some i => simp

theorem withIntent_std (v : DVar) : (withIntent v).std = v.std := by unfold withIntent; split <;> rfl

/-- Each stored variable has the merged intent of its uses, and each use is stored. -/
def MergedInv (d : Dict) (vs : List DVar) : Prop :=
  OnePerName d ∧ (∀ s v, Stores d s v → usesOf s vs ≠ [] ∧ v.intent = some (merged (usesOf s vs))) ∧
    ∀ s, usesOf s vs ≠ [] → ∃ v, Stores d s v

theorem usesOf_snoc_ne {s : Str} {vs : List DVar} {v : DVar} (h : v.std ≠ s) :
    usesOf s (vs ++ [v]) = usesOf s vs := by
  rw [usesOf_append]; simp [usesOf, h]

theorem usesOf_snoc_eq {vs : List DVar} {v : DVar} :
    usesOf v.std (vs ++ [v]) = usesOf v.std vs ++ [v.intent.getD .in] := by
  rw [usesOf_append]; simp [usesOf]

theorem callAdd_merged {cmp fl d d' vs v} (hfl : fl.existsOk = true) (hadj : fl.adjust = true)
    (hne : v.std ≠ constName) (hinv : MergedInv d vs) (h : callAdd cmp fl d v = (d', none)) :
    MergedInv d' (vs ++ [v]) := by
  have hadd : add cmp fl d (withIntent v) = (d', none) := h
  have hstd := withIntent_std v
  by_cases hh : ∃ c, Stores d v.std c
  · obtain ⟨c, hc⟩ := hh
    have hget : d.findHere (withIntent v).std = some c := by
      rw [hstd, findHere_ne hne]; exact (get?_iff hinv.1).2 hc
    obtain ⟨hu, hci⟩ := hinv.2.1 _ _ hc
    -- the dictionary after the compatibility part
    have hst : ∀ s w, Stores d' s w ↔ (s ≠ v.std ∧ Stores d s w) ∨
        (s = v.std ∧ w = { c with intent := some (merged (usesOf v.std (vs ++ [v]))) }) := by
      have hkeep := add_present_keeps cmp fl d hinv.1 (withIntent v) c (hstd.symm ▸ hc)
      rw [hadd] at hkeep
      simp only [hstd] at hkeep
      have hone : OnePerName d' := by
        have := add_one (cmp := cmp) (fl := fl) (v := withIntent v) hinv.1
        rw [hadd] at this; exact this
      have hval : Stores d' v.std { c with intent := some (merged (usesOf v.std (vs ++ [v]))) } := by
        rw [usesOf_snoc_eq, merged_snoc hu]
        unfold add at hadd
        rw [hfl] at hadd
        simp only [Bool.not_true, Bool.and_false, Bool.false_eq_true, if_false] at hadd
        split at hadd
        · cases hadd
        · rename_i d1 hd1
          split at hadd
          · cases hadd
          · rename_i v' hv'
            injection hadd with hadd _
            have hst1 : Stores d1 v.std { c with intent := some (if merged (usesOf v.std vs) =
                v.intent.getD .in then v.intent.getD .in else .inout) } := by
              unfold checkExisting at hd1
              rw [hget] at hd1
              simp only [hadj, if_true] at hd1
              split at hd1
              · cases hd1
              · cases hd1
              · split at hd1
                · rename_i heq
                  injection hd1 with hd1
                  subst hd1
                  rw [hci, withIntent_intent] at heq
                  injection heq with heq
                  rw [if_pos heq, ← heq, ← hci]
                  exact hc
                · rename_i hneq
                  have hneq' : merged (usesOf v.std vs) ≠ v.intent.getD .in := by
                    intro e; apply hneq; rw [hci, withIntent_intent, e]
                  rw [if_neg hneq']
                  split at hd1
                  · rename_i hint
                    split at hd1
                    · cases hd1
                    · rename_i c' hc'
                      injection hd1 with hd1
                      have : c' = { c with intent := some .inout } := by
                        unfold adjustIntent at hc'
                        simp only at hc'
                        split at hc'
                        · cases hc'
                        · rcases hint with ⟨h1, h2 | h2⟩ | ⟨h1, h2 | h2⟩ <;>
                            (rw [h1, h2] at hc'; simp at hc'; exact hc'.symm)
                      rw [← hd1, this, hstd]
                      exact set_stores.2 (Or.inl ⟨rfl, rfl, (has_iff d v.std).2 ⟨c, hc⟩⟩)
                  · rename_i hint
                    injection hd1 with hd1
                    subst hd1
                    rw [hci, withIntent_intent] at hint
                    have hm : merged (usesOf v.std vs) = .inout := by
                      generalize merged (usesOf v.std vs) = m at *
                      generalize v.intent.getD .in = j at *
                      cases m <;> cases j <;> simp at hint hneq' ⊢
                    rw [hm] at hci
                    rw [← hci]
                    exact hc
            have : d'.entries = d1.entries := by
              rw [← hadd]
              unfold insert
              have : d1.has v'.std = true := by
                obtain ⟨n, rfl, -⟩ := localPart_ok hv'
                simp only [hstd]
                exact (has_iff d1 v.std).2 ⟨_, hst1⟩
              simp only [this, if_true]
            unfold Stores at hst1 ⊢
            rw [this]; exact hst1
      intro s w
      constructor
      · intro hs
        by_cases hsv : s = v.std
        · subst hsv
          exact Or.inr ⟨rfl, nodup_fun hone.1 hs hval⟩
        · exact Or.inl ⟨hsv, (hkeep.2.1 s hsv w).1 hs⟩
      · rintro (⟨h1, h2⟩ | ⟨rfl, rfl⟩)
        · exact (hkeep.2.1 s h1 w).2 h2
        · exact hval
    refine ⟨?_, ?_, ?_⟩
    · have := add_one (cmp := cmp) (fl := fl) (v := withIntent v) hinv.1
      rw [hadd] at this; exact this
    · intro s w hw
      rcases (hst s w).1 hw with ⟨h1, h2⟩ | ⟨rfl, rfl⟩
      · rw [usesOf_snoc_ne (Ne.symm h1)]; exact hinv.2.1 s w h2
      · exact ⟨by rw [usesOf_snoc_eq]; simp, rfl⟩
    · intro s hs
      by_cases hsv : s = v.std
      · exact ⟨_, (hst s _).2 (Or.inr ⟨hsv, rfl⟩)⟩
      · rw [usesOf_snoc_ne (Ne.symm hsv)] at hs
        obtain ⟨w, hw⟩ := hinv.2.2 s hs
        exact ⟨w, (hst s w).2 (Or.inl ⟨hsv, hw⟩)⟩
  · have hl : Lacks d (withIntent v).std := by
      intro c hc; rw [hstd] at hc; exact hh ⟨c, hc⟩
    have hempty : usesOf v.std vs = [] := by
      by_contra hne'
      exact hh (hinv.2.2 _ hne')
    obtain ⟨n, -, hent, -⟩ := add_absent cmp fl d (withIntent v) hl (hstd ▸ hne) (by rw [hadd])
    rw [hadd] at hent
    simp only [hstd] at hent
    have hst : ∀ s w, Stores d' s w ↔ Stores d s w ∨
        (s = v.std ∧ w = { withIntent v with std := v.std, lname := n }) := by
      intro s w
      unfold Stores
      rw [hent]
      simp
    refine ⟨?_, ?_, ?_⟩
    · have := add_one (cmp := cmp) (fl := fl) (v := withIntent v) hinv.1
      rw [hadd] at this; exact this
    · intro s w hw
      rcases (hst s w).1 hw with h2 | ⟨rfl, rfl⟩
      · have hsv : v.std ≠ s := by rintro rfl; exact hh ⟨w, h2⟩
        rw [usesOf_snoc_ne hsv]; exact hinv.2.1 s w h2
      · rw [usesOf_snoc_eq, hempty]
        refine ⟨by simp, ?_⟩
        rw [List.nil_append, merged_single]
        exact withIntent_intent v
    · intro s hs
      by_cases hsv : s = v.std
      · exact ⟨_, (hst s _).2 (Or.inr ⟨hsv, rfl⟩)⟩
      · rw [usesOf_snoc_ne (Ne.symm hsv)] at hs
        obtain ⟨w, hw⟩ := hinv.2.2 s hs
        exact ⟨w, (hst s w).2 (Or.inl hw)⟩

/-- C36, first part: after any sequence of additions to a call list with adjust_intent and exists_ok
(the flags of CallList.add_vars) that did not raise, there is an argument for exactly the used
variables, and its intent is `in` if all its uses are `in`, `out` if all are `out`, `inout`
otherwise. -/
theorem merged_intent (cmp) (fl : Flags) (hfl : fl.existsOk = true) (hadj : fl.adjust = true)
    (vs : List DVar) (hne : ∀ v ∈ vs, v.std ≠ constName) (d : Dict)
    (h : callAddAll cmp fl Dict.empty vs = some d) (s : Str) :
    ((∃ v, Stores d s v) ↔ ∃ u ∈ vs, u.std = s) ∧
    ∀ v, Stores d s v → v.intent = some (merged (usesOf s vs)) := by
  have key : ∀ ws, ∀ d0 us, (∀ v ∈ ws, v.std ≠ constName) → MergedInv d0 us →
      ∀ d, callAddAll cmp fl d0 ws = some d → MergedInv d (us ++ ws) := by
    intro ws
    induction ws with
    | nil => intro d0 us _ h0 d h; rw [callAddAll] at h; injection h with h; subst h; simpa using h0
    | cons w ws ih =>
      intro d0 us hne h0 d h
      rw [callAddAll] at h
      split at h
      · rename_i d' hd'
        have := ih d' (us ++ [w]) (fun v hv => hne v (List.mem_cons_of_mem _ hv))
          (callAdd_merged hfl hadj (hne w (by simp)) h0 hd') d h
        simpa using this
      · cases h
  have h0 : MergedInv Dict.empty [] :=
    ⟨⟨by simp [Dict.empty], by simp [Dict.empty]⟩, by simp [Stores, Dict.empty], by simp [usesOf]⟩
  have hinv := key vs Dict.empty [] hne h0 d h
  rw [List.nil_append] at hinv
  refine ⟨⟨?_, ?_⟩, fun v hv => (hinv.2.1 s v hv).2⟩
  · rintro ⟨v, hv⟩
    obtain ⟨i, hi⟩ := List.exists_mem_of_ne_nil _ (hinv.2.1 s v hv).1
    unfold usesOf at hi
    obtain ⟨u, hu, -⟩ := List.mem_map.1 hi
    have := List.mem_filter.1 hu
    exact ⟨u, this.1, by simpa using this.2⟩
  · rintro ⟨u, hu, hs⟩
    apply hinv.2.2 s
    intro e
    unfold usesOf at e
    rw [List.map_eq_nil_iff] at e
    have : u ∈ vs.filter fun v => v.std = s := List.mem_filter.2 ⟨hu, by simpa using hs⟩
    rw [e] at this; cases this

theorem merged_perm {a b : List Intent} (h : a.Perm b) : merged a = merged b := by
  unfold merged
  have : ∀ i : Intent, (∀ j ∈ a, j = i) ↔ ∀ j ∈ b, j = i := fun i =>
    ⟨fun H j hj => H j (h.mem_iff.2 hj), fun H j hj => H j (h.mem_iff.1 hj)⟩
  simp only [this]

/-- C36, second part: the intents do not depend on the order of the uses. -/
theorem merged_intent_order (cmp) (fl : Flags) (hfl : fl.existsOk = true) (hadj : fl.adjust = true)
    (vs ws : List DVar) (hp : vs.Perm ws) (hne : ∀ v ∈ vs, v.std ≠ constName) (d e : Dict)
    (hd : callAddAll cmp fl Dict.empty vs = some d) (he : callAddAll cmp fl Dict.empty ws = some e)
    (s : Str) (v w : DVar) (hv : Stores d s v) (hw : Stores e s w) : v.intent = w.intent := by
  rw [(merged_intent cmp fl hfl hadj vs hne d hd s).2 v hv,
    (merged_intent cmp fl hfl hadj ws (fun v hv => hne v (hp.mem_iff.2 hv)) e he s).2 w hw]
  congr 1
  exact merged_perm ((hp.filter _).map _)

/-- C36, third part: whatever the history, an argument marked protected keeps intent `in` (or none),
given that no variable is created protected with another intent (metavar.py:332-338). -/
theorem protected_stays_in (cmp) (ops : List Op)
    (hops : ∀ fl v, .add fl v ∈ ops → v.prot = true → v.intent = none ∨ v.intent = some .in)
    (s : Str) (v : DVar) (hv : Stores (runOps cmp Dict.empty ops) s v) (hp : v.prot = true) :
    v.intent = none ∨ v.intent = some .in := by
  suffices h : ∀ d, OnePerName d →
      (∀ s v, Stores d s v → v.prot = true → v.intent = none ∨ v.intent = some .in) →
      ∀ s v, Stores (runOps cmp d ops) s v → v.prot = true → v.intent = none ∨ v.intent = some .in from
    h Dict.empty ⟨by simp [Dict.empty], by simp [Dict.empty]⟩ (by simp [Stores, Dict.empty]) s v hv hp
  clear hv hp
  induction ops with
  | nil => exact fun d _ h => h
  | cons o ops ih =>
    intro d hone h
    have hops' : ∀ fl v, .add fl v ∈ ops → v.prot = true → v.intent = none ∨ v.intent = some .in :=
      fun fl v hm => hops fl v (List.mem_cons_of_mem _ hm)
    cases o with
    | remove s =>
      exact ih hops' _ (remove_one hone s) fun t w hw => h t w ((remove_exact d s t w).1 hw).2
    | add fl u =>
      refine ih hops' _ (add_one hone) ?_
      have h1 : ∀ d1, checkExisting cmp fl d u = .ok d1 →
          ∀ s v, Stores d1 s v → v.prot = true → v.intent = none ∨ v.intent = some .in := by
        intro d1 hd1
        rcases checkExisting_ok hd1 with rfl | ⟨c, hc, -, hi, hpr, rfl⟩
        · exact h
        · intro s v hv hp
          rcases set_stores.1 hv with ⟨rfl, rfl, -⟩ | ⟨-, hv⟩
          · exfalso
            have hne := adjusted_ne_const hc (hi.imp (·.1) (·.1))
            rw [findHere_ne hne] at hc
            have hu := hpr hp
            have hcin := h _ _ (get?_mem hc) hp
            rcases hi with ⟨h1, h2 | h2⟩ | ⟨h1, h2⟩
            · rw [hu] at h2; cases h2
            · rw [hu] at h2; cases h2
            · rw [h1] at hcin; rcases hcin with h | h <;> cases h
          · exact h s v hv hp
      show ∀ s v, Stores (add cmp fl d u).1 s v → v.prot = true → v.intent = none ∨ v.intent = some .in
      unfold add
      split
      · exact h
      · split
        · exact h
        · rename_i d1 hd1
          split
          · exact h1 d1 hd1
          · rename_i v' hv'
            intro s v hv hp
            unfold insert Stores at hv
            simp only at hv
            split at hv
            · exact h1 d1 hd1 s v hv hp
            · rcases List.mem_append.1 hv with hv | hv
              · exact h1 d1 hd1 s v hv hp
              · rw [List.mem_singleton] at hv
                injection hv with _ hv
                obtain ⟨n, rfl, -⟩ := localPart_ok hv'
                subst hv
                exact hops fl u (by simp) hp

def prot0 : DVar := ⟨"gravity".toList, "g".toList, some .in, true, 2⟩

/-- C36 is violated in the order-independence of protection: a protected use followed by an `out` use
raises, the reverse order is accepted and gives one `inout` argument. -/
theorem C36_violated : ∃ a b : DVar, a.prot = true ∧ a.intent = some .in ∧
    callAddAll yes ⟨true, false, true⟩ Dict.empty [a, b] = none ∧
    ∃ d v, callAddAll yes ⟨true, false, true⟩ Dict.empty [b, a] = some d ∧
      Stores d a.std v ∧ v.intent = some .inout :=
  ⟨prot0, { prot0 with intent := some .out, prot := false }, rfl, rfl, by decide +kernel,
    _, { prot0 with intent := some .inout, prot := false }, rfl, by unfold Stores; decide +kernel, rfl⟩

example : ∃ d, callAddAll yes lax Dict.empty
    [v0, v1, { v0 with intent := some .out }, { v1 with intent := none }, v0] = some d ∧
    Stores d v0.std { v0 with intent := some .inout } :=
  ⟨_, rfl, by unfold Stores; decide +kernel⟩

/-! ## C37 -/

theorem digitChar_inj : ∀ a < 10, ∀ b < 10, Nat.digitChar a = Nat.digitChar b → a = b := by decide

theorem map_inj_on {α β} {f : α → β} {P : α → Prop} (hf : ∀ a, P a → ∀ b, P b → f a = f b → a = b) :
    ∀ l m : List α, (∀ a ∈ l, P a) → (∀ a ∈ m, P a) → l.map f = m.map f → l = m
  | [], [], _, _, _ => rfl
  | [], _ :: _, _, _, h => by cases h
  | _ :: _, [], _, _, h => by cases h
  | a :: l, b :: m, h1, h2, h => by
    rw [List.map_cons, List.map_cons] at h
    injection h with h3 h4
    rw [hf a (h1 a (by simp)) b (h2 b (by simp)) h3,
      map_inj_on hf l m (fun x hx => h1 x (List.mem_cons_of_mem _ hx))
        (fun x hx => h2 x (List.mem_cons_of_mem _ hx)) h4]

theorem dec_pos {n : Nat} (h : n ≠ 0) : dec n = ((Nat.digits 10 n).map Nat.digitChar).reverse := by
  unfold dec; rw [if_neg h]

theorem dec_inj {a b : Nat} (ha : a ≠ 0) (hb : b ≠ 0) (h : dec a = dec b) : a = b := by
  rw [dec_pos ha, dec_pos hb, List.reverse_inj] at h
  exact Nat.digits_inj_iff.1 (map_inj_on (P := (· < 10)) digitChar_inj _ _
    (fun x hx => Nat.digits_lt_base (by decide) hx) (fun x hx => Nat.digits_lt_base (by decide) hx) h)

theorem dec_len {n : Nat} (h : n ≠ 0) : (dec n).length = (Nat.digits 10 n).length := by
  rw [dec_pos h]; simp

theorem dec_ne_nil {n : Nat} (h : n ≠ 0) : dec n ≠ [] := by
  intro e
  have := congrArg List.length e
  rw [dec_len h] at this
  exact h (Nat.digits_eq_nil_iff_eq_zero.1 (List.length_eq_zero_iff.1 this))

/-- The i-th candidate. -/
def cand (p : Str) (i : Nat) : Str := if i = 0 then p else p ++ dec i

theorem cand_inj {p : Str} {i j : Nat} (h : cand p i = cand p j) : i = j := by
  unfold cand at h
  split at h <;> split at h
  · omega
  · rename_i hj
    have := congrArg List.length h
    rw [List.length_append] at this
    exact absurd (List.length_eq_zero_iff.1 (by omega)) (dec_ne_nil hj)
  · rename_i hi _
    have := congrArg List.length h
    rw [List.length_append] at this
    exact absurd (List.length_eq_zero_iff.1 (by omega)) (dec_ne_nil hi)
  · rename_i hi hj
    exact dec_inj hi hj (List.append_cancel_left h)

theorem nameLoop_succ (taken : List Str) (maxLen f : Nat) (p : Str) (i : Nat) :
    nameLoop taken maxLen (f + 1) p i =
      if (cand p i).length > maxLen then nameLoop taken maxLen f p.dropLast (i + 1)
      else if cand p i ∈ taken then nameLoop taken maxLen f p (i + 1)
      else some (cand p i) := rfl

theorem nameLoop_sound {taken maxLen} : ∀ f p i n, nameLoop taken maxLen f p i = some n →
    n.length ≤ maxLen ∧ n ∉ taken := by
  intro f
  induction f with
  | zero => intro p i n h; cases h
  | succ f ih =>
    intro p i n h
    rw [nameLoop_succ] at h
    split at h
    · exact ih _ _ _ h
    · split at h
      · exact ih _ _ _ h
      · rename_i h1 h2
        injection h with h
        subst h
        exact ⟨by omega, h2⟩

theorem hasSub_append (a b : Str) : VC.hasSub a (a ++ b) = true := by
  cases h : a ++ b with
  | nil =>
    have ha : a = [] := (List.append_eq_nil_iff.1 h).1
    subst ha; simp [VC.hasSub]
  | cons c s =>
    rw [VC.hasSub, Bool.or_eq_true]
    left
    rw [List.isPrefixOf_iff_prefix, ← h]
    exact List.prefix_append a b

/-- C37, first part: a returned name is at most `max_len` long. -/
theorem newName_length (d : Dict) (pre : Str) (maxLen fuel : Nat) (n : Str)
    (h : d.newName pre maxLen fuel = some n) : n.length ≤ maxLen := (nameLoop_sound _ _ _ _ h).1

/-- C37, second part: a returned name that starts with the prefix (it was not truncated) is not a
registered local name, if it is lower case.  Missing: prefixes with upper-case letters and truncated
names, for which it is false. -/
theorem newName_fresh_partial (d : Dict) (pre : Str) (maxLen fuel : Nat) (n : Str)
    (h : d.newName pre maxLen fuel = some n) (hp : pre <+: n) (hl : lower n = n) :
    lower n ∉ d.lnames.map (·.1) := by
  intro hm
  apply (nameLoop_sound _ _ _ _ h).2
  rw [List.mem_filter]
  rw [hl] at hm
  obtain ⟨t, rfl⟩ := hp
  exact ⟨hm, hasSub_append pre t⟩

theorem nameLoop_finds {taken maxLen p} : ∀ f i, (∀ j, i ≤ j → j < i + f → (cand p j).length ≤ maxLen) →
    (∃ j, i ≤ j ∧ j < i + f ∧ cand p j ∉ taken) →
    ∃ j, i ≤ j ∧ nameLoop taken maxLen f p i = some (cand p j) := by
  intro f
  induction f with
  | zero => rintro i _ ⟨j, h1, h2, -⟩; omega
  | succ f ih =>
    intro i hlen hex
    rw [nameLoop_succ]
    rw [if_neg (by have := hlen i (by omega) (by omega); omega)]
    split
    · rename_i ht
      obtain ⟨j, h1, h2, h3⟩ := hex
      have hij : i ≠ j := by rintro rfl; exact h3 ht
      obtain ⟨k, hk, h⟩ := ih (i + 1) (fun j h1 h2 => hlen j (by omega) (by omega))
        ⟨j, by omega, by omega, h3⟩
      exact ⟨k, by omega, h⟩
    · exact ⟨i, by omega, rfl⟩

theorem dec_len_mono {a b : Nat} (h : a ≤ b) (ha : a ≠ 0) : (dec a).length ≤ (dec b).length := by
  rw [dec_len ha, dec_len (by omega)]
  exact Nat.le_length_digits_le 10 a b h

/-- C37, third part: the search succeeds within (number of registered names + 1) steps if the prefix
leaves room for the digits, and then the name starts with the prefix. -/
theorem newName_total (d : Dict) (pre : Str) (maxLen fuel : Nat)
    (hroom : pre.length + (dec (d.lnames.length + 1)).length ≤ maxLen)
    (hfuel : fuel = d.lnames.length + 1) :
    ∃ n, d.newName pre maxLen fuel = some n ∧ pre <+: n := by
  unfold Dict.newName
  generalize htk : ((d.lnames.map (·.1)).filter fun x => VC.hasSub pre x) = taken
  have hlen : taken.length ≤ d.lnames.length := by
    rw [← htk]; exact (List.length_filter_le _ _).trans (by simp)
  have hex : ∃ j, 0 ≤ j ∧ j < 0 + fuel ∧ cand pre j ∉ taken := by
    by_contra hno
    have hall : ∀ j, j < fuel → cand pre j ∈ taken := by
      intro j hj
      by_contra h
      exact hno ⟨j, by omega, by omega, h⟩
    have hsub : ((List.range fuel).map (cand pre)) ⊆ taken := by
      intro x hx
      obtain ⟨j, hj, rfl⟩ := List.mem_map.1 hx
      exact hall j (List.mem_range.1 hj)
    have hnd : ((List.range fuel).map (cand pre)).Nodup := by
      rw [List.nodup_map_iff_inj_on List.nodup_range]
      exact fun a _ b _ h => cand_inj h
    have := (List.Nodup.subperm hnd hsub).length_le
    rw [List.length_map, List.length_range] at this
    omega
  have hl : ∀ j, 0 ≤ j → j < 0 + fuel → (cand pre j).length ≤ maxLen := by
    intro j _ hj
    unfold cand
    split
    · omega
    · rename_i h0
      rw [List.length_append]
      have := dec_len_mono (a := j) (b := d.lnames.length + 1) (by omega) h0
      omega
  obtain ⟨j, -, h⟩ := nameLoop_finds fuel 0 hl hex
  refine ⟨_, h, ?_⟩
  unfold cand
  split
  · exact List.prefix_refl _
  · exact List.prefix_append _ _

/-- C37 is violated by the code in two ways: a prefix with an upper-case letter is returned although
the same name is registered, and a truncated name may be a registered one. -/
theorem C37_violated :
    (∃ d n, Dict.newName d "T".toList 63 10 = some n ∧ ∃ v, Stores d v0.std v ∧ v.lname = n) ∧
    (∃ d n, Dict.newName d "abcd".toList 4 10 = some n ∧ n = "abc2".toList ∧
      ∃ v, Stores d "s1".toList v ∧ v.lname = n) := by
  refine ⟨⟨chainA, _, rfl, v0, ?_, rfl⟩, ⟨(callAddAll yes strict Dict.empty
    [⟨"s0".toList, "abcd".toList, none, false, 0⟩, ⟨"s1".toList, "abc2".toList, none, false, 0⟩]).getD Dict.empty,
    "abc2".toList, ?_, rfl, ⟨"s1".toList, "abc2".toList, some .in, false, 0⟩, ?_, rfl⟩⟩
  · unfold Stores; decide +kernel
  · decide +kernel
  · unfold Stores; decide +kernel

example : Dict.newName chainB "t".toList 63 10 = some "t1".toList ∧
    lower "t1".toList = "t1".toList ∧ "t".toList <+: "t1".toList ∧
    "t".toList.length + (dec (chainB.lnames.length + 1)).length ≤ 63 := by decide +kernel

end Ccpp.VD
