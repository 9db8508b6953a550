import Verif.Spec.DimSources
import Verif.Props.VarDictionary
import Verif.Props.VarRef
/-!
# C92: every dimension of a variable gets a source
-/
namespace Ccpp.DimS

open VD (Str Dict DVar Stores Lacks OnePerName Innermost Intent constName has_iff lacks_iff get?_none get?_iff
  get?_mem findHere_ne find_innermost)

/-! ## Names -/

theorem digitSeq_dense {s : List Char} (h : Chk.DigitSeq s) : ∀ c ∈ s, isWs c = false := by
  have dig : ∀ {c : Char}, c.isDigit = true → isWs c = false := by
    intro c hc
    cases h : isWs c with
    | false => rfl
    | true =>
      simp only [isWs, Bool.or_eq_true, beq_iff_eq] at h
      rcases h with ((((rfl | rfl) | rfl) | rfl) | rfl) | rfl <;> exact absurd hc (by decide)
  induction h with
  | one h => intro c hc; rw [List.mem_singleton.1 hc]; exact dig h
  | more h _ ih => intro c hc; rcases List.mem_cons.1 hc with rfl | hc; exact dig h; exact ih c hc
  | underscore h _ ih =>
    intro c hc
    rcases List.mem_cons.1 hc with rfl | hc
    · exact dig h
    · rcases List.mem_cons.1 hc with rfl | hc
      · decide
      · exact ih c hc

theorem int_dense {s : List Char} (h : Chk.IsInt s) : ∀ c ∈ s, isWs c = false := by
  rcases h with h | ⟨t, rfl | rfl, h⟩
  · exact digitSeq_dense h
  · intro c hc; rcases List.mem_cons.1 hc with rfl | hc; decide; exact digitSeq_dense h c hc
  · intro c hc; rcases List.mem_cons.1 hc with rfl | hc; decide; exact digitSeq_dense h c hc

theorem isInt_iff (n : Str) : isInt n = true ↔ Number n := by
  unfold isInt
  rw [Chk.isPyInt_iff]
  constructor
  · intro h
    obtain ⟨a, b, ha, hb, e⟩ := FDecl.strip_split n
    exact ⟨a, _, b, ha, hb, h, e⟩
  · rintro ⟨a, t, b, ha, hb, ht, rfl⟩
    have ti : FDecl.Tight t := ⟨fun c hc => int_dense ht c (List.mem_of_mem_head? hc), fun c hc => int_dense ht c (List.mem_of_mem_getLast? hc)⟩
    rw [FDecl.strip_core ha ti hb]
    exact ht

theorem isInt_false (n : Str) : isInt n = false ↔ ¬Number n := by
  rw [← isInt_iff]; simp

theorem mem_dimStdnames (dims : List Str) (n : Str) : n ∈ dimStdnames false dims ↔ Names dims n := by
  unfold dimStdnames Names
  rw [List.mem_flatMap]
  constructor
  · rintro ⟨dim, hd, hn⟩
    obtain ⟨h1, h2, h3⟩ := VRef.splitOn_facts ':' dim
    rw [List.mem_filter] at hn
    have h4 := hn.2
    simp only [Bool.false_or, Bool.and_eq_true, Bool.not_eq_true', beq_eq_false_iff_ne] at h4
    exact ⟨dim, hd, _, h3, h1, h2, hn.1, (isInt_false n).1 h4.1, h4.2⟩
  · rintro ⟨dim, hd, parts, h3, h1, h2, hn, hi, hc⟩
    refine ⟨dim, hd, ?_⟩
    rw [List.mem_filter, ← h3, VRef.splitOn_sepBy ':' parts h1 h2]
    refine ⟨hn, ?_⟩
    simp [(isInt_false n).2 hi, hc]

/-! ## One dictionary -/

theorem findHere_some {d : Dict} {n : Str} (hn : n ≠ constName) : (d.findHere n).isSome = true ↔ Has d n := by
  rw [findHere_ne hn]
  cases h : d.get? n with
  | none => simp only [Option.isSome_none, Bool.false_eq_true, false_iff]; rintro ⟨v, hv⟩; exact get?_none.1 h v hv
  | some v => simp only [Option.isSome_some, true_iff]; exact ⟨v, get?_mem h⟩

theorem lacks_not {d : Dict} {n : Str} (h : ¬Has d n) : Lacks d n := fun v hv => h ⟨v, hv⟩

theorem lookup_mem {l : List (Str × Str)} {k s : Str} (h : VD.lookupName l k = some s) : (k, s) ∈ l := by
  unfold VD.lookupName at h
  rw [Option.map_eq_some_iff] at h
  obtain ⟨⟨k', s'⟩, h1, rfl⟩ := h
  have := List.find?_some h1
  have hk : k' = k := by simpa using this
  exact hk ▸ List.mem_of_find?_eq_some h1

theorem add_new (cmp) (adj : Bool) {d : Dict} {v : DVar} (hr : Registered d) (hl : ¬Has d v.std)
    (hc : v.std ≠ constName) :
    ∃ d', VD.add cmp ⟨true, false, adj⟩ d v = (d', none) ∧ d'.entries = d.entries ++ [(v.std, v)] ∧
      Registered d' := by
  have hg : d.get? v.std = none := get?_none.2 (lacks_not hl)
  have hh : d.has v.std = false := (lacks_iff d _).2 (lacks_not hl)
  have hck : VD.checkExisting cmp ⟨true, false, adj⟩ d v = .ok d := by
    unfold VD.checkExisting
    rw [findHere_ne hc, hg]
  have hlp : VD.localPart ⟨true, false, adj⟩ d v = .ok v := by
    unfold VD.localPart VD.Dict.findLocal
    cases hk : VD.lookupName d.lnames (lower v.lname) with
    | none => rfl
    | some s =>
      have hm := hr _ (lookup_mem hk)
      have : (d.findHere s).isSome = true := by
        rcases hm with e | e
        · have e : s = constName := e
          unfold VD.Dict.findHere; rw [if_pos e]; rfl
        · by_cases hs : s = constName
          · unfold VD.Dict.findHere; rw [if_pos hs]; rfl
          · exact (findHere_some hs).2 e
      obtain ⟨w, hw⟩ := Option.isSome_iff_exists.1 this
      simp only [hw]
      rfl
  refine ⟨VD.insert d v v.lname, ?_, ?_, ?_⟩
  · unfold VD.add
    rw [hh]
    simp only [Bool.false_and, Bool.false_eq_true, if_false, hck, hlp]
  · unfold VD.insert
    simp [hh]
  · have he : (VD.insert d v v.lname).entries = d.entries ++ [(v.std, v)] := by unfold VD.insert; simp [hh]
    intro p hp
    unfold VD.insert at hp
    have key : p ∈ d.lnames ∨ p = (lower v.lname, v.std) := by
      simp only at hp
      split at hp
      · exact .inl hp
      · simpa using hp
    rcases key with hp | rfl
    · rcases hr p hp with e | ⟨w, hw⟩
      · exact .inl e
      · exact .inr ⟨w, by unfold Stores; rw [he]; exact List.mem_append_left _ hw⟩
    · exact .inr ⟨v, by unfold Stores; rw [he]; simp⟩

theorem has_append {d d' : Dict} {l : List (Str × DVar)} (h : d'.entries = d.entries ++ l) (n : Str) :
    Has d' n ↔ Has d n ∨ n ∈ l.map (·.1) := by
  unfold Has Stores
  rw [h]
  constructor
  · rintro ⟨v, hv⟩
    rcases List.mem_append.1 hv with hv | hv
    · exact .inl ⟨v, hv⟩
    · exact .inr (List.mem_map.2 ⟨_, hv, rfl⟩)
  · rintro (⟨v, hv⟩ | hn)
    · exact ⟨v, List.mem_append_left _ hv⟩
    · obtain ⟨⟨k, v⟩, hv, rfl⟩ := List.mem_map.1 hn
      exact ⟨v, List.mem_append_right _ hv⟩

/-! ## Enclosing dictionaries -/

theorem innermost_cons {d : Dict} {ps : List Dict} {n : Str} {v : DVar} (hl : ¬Has d n) :
    Innermost (d :: ps) n v ↔ Innermost ps n v := by
  constructor
  · rintro ⟨inner, e, outer, h1, h2, h3⟩
    cases inner with
    | nil =>
      injection h1 with h1 h1'
      exact absurd ⟨v, h1 ▸ h3⟩ hl
    | cons x xs =>
      injection h1 with h1 h1'
      exact ⟨xs, e, outer, h1', fun y hy => h2 y (List.mem_cons_of_mem _ hy), h3⟩
  · rintro ⟨inner, e, outer, h1, h2, h3⟩
    refine ⟨d :: inner, e, outer, by rw [h1]; rfl, ?_, h3⟩
    intro y hy
    rcases List.mem_cons.1 hy with rfl | hy
    · exact lacks_not hl
    · exact h2 y hy

theorem innermost_std {ps : List Dict} (h : ∀ e ∈ ps, OnePerName e) {n : Str} {v : DVar}
    (hv : Innermost ps n v) : v.std = n := by
  obtain ⟨inner, e, outer, h1, -, h3⟩ := hv
  exact (h e (by rw [h1]; simp)).2 _ h3

theorem innermost_unique {ps : List Dict} (h : ∀ e ∈ ps, OnePerName e) {n : Str} {v w : DVar}
    (hn : n ≠ constName) (hv : Innermost ps n v) (hw : Innermost ps n w) : v = w := by
  have ho : OnePerName Dict.empty := ⟨by simp [Dict.empty], by simp [Dict.empty]⟩
  have hl : ¬Has Dict.empty n := by rintro ⟨v, hv⟩; simp [Stores, Dict.empty] at hv
  have hall : ∀ e ∈ Dict.empty :: ps, OnePerName e := by
    intro e he
    rcases List.mem_cons.1 he with rfl | he
    · exact ho
    · exact h e he
  have h1 := (find_innermost n hn ps Dict.empty hall v).2 ((innermost_cons hl).2 hv)
  have h2 := (find_innermost n hn ps Dict.empty hall w).2 ((innermost_cons hl).2 hw)
  rw [h1] at h2; exact Option.some.inj h2

/-! ## One dimension -/

/-- The target is usable. -/
def Fine (st : St) : Prop :=
  match st.tgt with
  | none => OnePerName st.self ∧ Registered st.self
  | some t => OnePerName st.self ∧ OnePerName t ∧ Registered t ∧ t.entries ≠ []

/-- The state after additions and messages. -/
def After (a : Args) (var : DVar) (st st' : St) (added : List (Str × DVar)) (errs : List (Str × Option DVar)) : Prop :=
  st'.err = errs.foldl (fun e p => addErr e (message a var p.1 p.2)) st.err ∧
  match st.tgt with
  | none => st'.tgt = none ∧ st'.self.entries = st.self.entries ++ added
  | some t => st'.self = st.self ∧ ∃ t', st'.tgt = some t' ∧ t'.entries = t.entries ++ added

theorem truthy_ne {t : Dict} (h : t.entries ≠ []) : truthy (some t) = some t := by
  unfold truthy
  simp [h]

theorem after_refl (a : Args) (var : DVar) (st : St) : After a var st st [] [] := by
  refine ⟨rfl, ?_⟩
  cases h : st.tgt with
  | none => exact ⟨rfl, by simp⟩
  | some t => exact ⟨rfl, t, rfl, by simp⟩

theorem after_trans {a : Args} {var : DVar} {s1 s2 s3 : St} {l1 l2 e1 e2} (h1 : After a var s1 s2 l1 e1)
    (h2 : After a var s2 s3 l2 e2) : After a var s1 s3 (l1 ++ l2) (e1 ++ e2) := by
  obtain ⟨h11, h12⟩ := h1
  obtain ⟨h21, h22⟩ := h2
  refine ⟨by rw [h21, h11, List.foldl_append], ?_⟩
  cases h : s1.tgt with
  | none =>
    rw [h] at h12
    obtain ⟨h12, h13⟩ := h12
    rw [h12] at h22
    exact ⟨h22.1, by rw [h22.2, h13, List.append_assoc]⟩
  | some t =>
    rw [h] at h12
    obtain ⟨h12, t', h13, h14⟩ := h12
    rw [h13] at h22
    obtain ⟨h22, t'', h23, h24⟩ := h22
    exact ⟨h22.trans h12, t'', h23, by rw [h24, h14, List.append_assoc]⟩

theorem present_after {a : Args} {var : DVar} {st st' : St} {added errs} (h : After a var st st' added errs) (n : Str) :
    Present st'.self st'.tgt n ↔ Present st.self st.tgt n ∨ n ∈ added.map (·.1) := by
  obtain ⟨-, h⟩ := h
  unfold Present
  cases ht : st.tgt with
  | none =>
    rw [ht] at h
    rw [h.1, has_append h.2 n]
    simp
  | some t =>
    rw [ht] at h
    obtain ⟨h1, t', h2, h3⟩ := h
    rw [h1, h2]
    constructor
    · rintro (hs | ⟨t1, e, ht1⟩)
      · exact .inl (.inl hs)
      · injection e with e; subst e
        rcases (has_append h3 n).1 ht1 with hx | hx
        · exact .inl (.inr ⟨t, rfl, hx⟩)
        · exact .inr hx
    · rintro ((hs | ⟨t1, e, ht1⟩) | hx)
      · exact .inl hs
      · injection e with e; subst e
        exact .inr ⟨t', rfl, (has_append h3 n).2 (.inl ht1)⟩
      · exact .inr ⟨t', rfl, (has_append h3 n).2 (.inr hx)⟩

theorem asArgument_std (b : Bool) (v : DVar) : (asArgument b v).std = v.std := by
  unfold asArgument; split <;> rfl

theorem addTgt (a : Args) {t : Dict} {v : DVar} (ho : OnePerName t) (hr : Registered t) (hl : ¬Has t v.std)
    (hc : v.std ≠ constName) :
    ∃ t', (if a.isCall then VD.callAdd else VD.add) a.cmp ⟨true, false, a.adjust⟩ t v = (t', none) ∧
      t'.entries = t.entries ++ [(v.std, asArgument a.isCall v)] ∧ Registered t' ∧ OnePerName t' := by
  have key : (if a.isCall then VD.callAdd else VD.add) a.cmp ⟨true, false, a.adjust⟩ t v =
      VD.add a.cmp ⟨true, false, a.adjust⟩ t (asArgument a.isCall v) := by
    cases h : a.isCall with
    | false => unfold asArgument; simp
    | true => unfold VD.callAdd asArgument; simp
  rw [key]
  obtain ⟨t', h1, h2, h3⟩ := add_new a.cmp a.adjust (v := asArgument a.isCall v) hr
    (by rw [asArgument_std]; exact hl) (by rw [asArgument_std]; exact hc)
  refine ⟨t', h1, by rw [h2, asArgument_std], h3, ?_⟩
  have := VD.add_one (cmp := a.cmp) (fl := ⟨true, false, a.adjust⟩) (v := asArgument a.isCall v) ho
  rw [h1] at this; exact this

theorem dimStep_spec (a : Args) (var : DVar) (st : St) (n : Str) (hn : n ≠ constName)
    (hp : ∀ e ∈ a.parents, OnePerName e) (hf : Fine st) :
    ∃ st' added errs, dimStep a var st n = (st', none) ∧ After a var st st' added errs ∧ Fine st' ∧
      ((Present st.self st.tgt n ∧ added = [] ∧ errs = []) ∨
       (¬Present st.self st.tgt n ∧ ∃ v, Provides a n v ∧ errs = [] ∧
          added = [(n, asArgument (st.tgt.isSome && a.isCall) v)]) ∨
       (¬Present st.self st.tgt n ∧ ∃ f, Missing a n f ∧ added = [] ∧ errs = [(n, f)])) := by
  have hso : OnePerName st.self := by
    unfold Fine at hf; split at hf
    · exact hf.1
    · exact hf.1
  have hall : ∀ e ∈ st.self :: a.parents, OnePerName e := by
    intro e he
    rcases List.mem_cons.1 he with rfl | he
    · exact hso
    · exact hp e he
  -- the variable is present
  by_cases hpres : Present st.self st.tgt n
  · refine ⟨st, [], [], ?_, after_refl a var st, hf, .inl ⟨hpres, rfl, rfl⟩⟩
    unfold dimStep
    rcases hpres with hs | ⟨t, ht, hh⟩
    · have h1 := (findHere_some hn).2 hs
      simp [h1]
    · unfold Fine at hf
      rw [ht] at hf
      have h1 := (findHere_some hn).2 hh
      have h2 : (findTo st.tgt n).isSome = true := by
        unfold findTo; rw [ht, truthy_ne hf.2.2.2]; exact h1
      simp only [h2, if_true]
  -- it is not
  have hs : ¬Has st.self n := fun h => hpres (.inl h)
  have hs1 : (st.self.findHere n).isSome = false := by
    rw [← Bool.not_eq_true]; intro h; exact hs ((findHere_some hn).1 h)
  have hq : ∀ t, st.tgt = some t → ¬Has t n := fun t ht h => hpres (.inr ⟨t, ht, h⟩)
  have hpn : (findTo st.tgt n).isSome = false := by
    unfold findTo
    cases ht : st.tgt with
    | none => rfl
    | some t =>
      unfold Fine at hf; rw [ht] at hf
      rw [truthy_ne hf.2.2.2]
      simp only
      rw [← Bool.not_eq_true]; intro h; exact hq t ht ((findHere_some hn).1 h)
  have hstep : dimStep a var st n = match VD.find st.self a.parents n true with
    | none => ({ st with err := addErr st.err (message a var n none) }, none)
    | some dvar =>
      if dvar |> a.src |> a.ignore.contains then
        ({ st with err := addErr st.err (message a var n (some dvar)) }, none)
      else match truthy st.tgt with
        | some t =>
          let r := (if a.isCall then VD.callAdd else VD.add) a.cmp ⟨true, false, a.adjust⟩ t dvar
          ({ st with tgt := some r.1 }, r.2)
        | none =>
          let r := VD.add a.cmp ⟨true, false, a.adjust⟩ st.self dvar
          ({ st with self := r.1 }, r.2) := by
    unfold dimStep
    simp only [hpn, hs1, Bool.false_eq_true, if_false]
    rfl
  rw [hstep]
  cases hfd : VD.find st.self a.parents n true with
  | none =>
    refine ⟨_, [], [(n, none)], rfl, ⟨rfl, ?_⟩, ?_, .inr (.inr ⟨hpres, none, ?_, rfl, rfl⟩)⟩
    · cases ht : st.tgt with
      | none => exact ⟨rfl, by simp⟩
      | some t => exact ⟨rfl, t, rfl, by simp⟩
    · exact hf
    · intro v hv
      have := (find_innermost n hn a.parents st.self hall v).2 ((innermost_cons hs).2 hv)
      rw [hfd] at this; cases this
  | some v =>
    have hin : Innermost a.parents n v :=
      (innermost_cons hs).1 ((find_innermost n hn a.parents st.self hall v).1 hfd)
    have hstd : v.std = n := innermost_std hp hin
    simp only
    by_cases hig : a.src v ∈ a.ignore
    · rw [if_pos (by simpa using hig)]
      refine ⟨_, [], [(n, some v)], rfl, ⟨rfl, ?_⟩, ?_, .inr (.inr ⟨hpres, some v, ⟨hin, hig⟩, rfl, rfl⟩)⟩
      · cases ht : st.tgt with
        | none => exact ⟨rfl, by simp⟩
        | some t => exact ⟨rfl, t, rfl, by simp⟩
      · exact hf
    · rw [if_neg (by simpa using hig)]
      cases ht : st.tgt with
      | none =>
        unfold Fine at hf; rw [ht] at hf
        obtain ⟨d', h1, h2, h3⟩ := add_new a.cmp a.adjust hf.2 (v := v) (by rw [hstd]; exact hs) (by rw [hstd]; exact hn)
        have hone : OnePerName d' := by
          have := VD.add_one (cmp := a.cmp) (fl := ⟨true, false, a.adjust⟩) (v := v) hf.1
          rw [h1] at this; exact this
        simp only [truthy, h1]
        refine ⟨_, [(n, v)], [], rfl, ⟨rfl, ?_⟩, ?_, .inr (.inl ⟨ht ▸ hpres, v, ⟨hin, hig⟩, rfl, ?_⟩)⟩
        · rw [ht]; exact ⟨rfl, by rw [h2, hstd]⟩
        · unfold Fine; exact ⟨hone, h3⟩
        · unfold asArgument; simp
      | some t =>
        unfold Fine at hf; rw [ht] at hf
        obtain ⟨t', h1, h2, h3, h4⟩ := addTgt a hf.2.1 hf.2.2.1 (v := v) (by rw [hstd]; exact hq t ht)
          (by rw [hstd]; exact hn)
        rw [truthy_ne hf.2.2.2]
        simp only [h1]
        refine ⟨_, [(n, asArgument a.isCall v)], [], rfl, ⟨rfl, ?_⟩, ?_, .inr (.inl ⟨ht ▸ hpres, v, ⟨hin, hig⟩, rfl, ?_⟩)⟩
        · rw [ht]; exact ⟨rfl, t', rfl, by rw [h2, hstd]⟩
        · unfold Fine; exact ⟨hf.1, h4, h3, by rw [h2]; simp⟩
        · simp

/-! ## All dimensions -/

theorem fine_after_some {a : Args} {var : DVar} {st st' : St} {l e} (h : After a var st st' l e) :
    st'.tgt.isSome = st.tgt.isSome := by
  obtain ⟨-, h⟩ := h
  cases ht : st.tgt with
  | none => rw [ht] at h; rw [h.1]
  | some t => rw [ht] at h; obtain ⟨-, t', h, -⟩ := h; rw [h]; rfl

theorem dimLoop_spec (a : Args) (var : DVar) (hp : ∀ e ∈ a.parents, OnePerName e) :
    ∀ (order : List Str) (st : St), constName ∉ order → order.Nodup → Fine st →
    ∃ st' added errs, dimLoop a var st order = (st', none) ∧ After a var st st' added errs ∧ Fine st' ∧
      (added.map (·.1)).Sublist order ∧ (errs.map (·.1)).Sublist order ∧
      (∀ n v, (n, v) ∈ added ↔ n ∈ order ∧ ¬Present st.self st.tgt n ∧
        ∃ w, Provides a n w ∧ v = asArgument (st.tgt.isSome && a.isCall) w) ∧
      (∀ n f, (n, f) ∈ errs ↔ n ∈ order ∧ ¬Present st.self st.tgt n ∧ Missing a n f) := by
  intro order
  induction order with
  | nil =>
    intro st _ _ hf
    exact ⟨st, [], [], rfl, after_refl a var st, hf, by simp, by simp, by simp, by simp⟩
  | cons n order ih =>
    intro st hc hnd hf
    have hn : n ≠ constName := fun e => hc (e ▸ List.mem_cons_self ..)
    rw [List.nodup_cons] at hnd
    obtain ⟨s1, l1, e1, g1, g2, g3, g4⟩ := dimStep_spec a var st n hn hp hf
    obtain ⟨s2, l2, e2, k1, k2, k3, k4, k5, k6, k7⟩ := ih s1 (fun h => hc (List.mem_cons_of_mem _ h)) hnd.2 g3
    have hsome := fine_after_some g2
    -- presence of later names is not changed
    have hl1 : ∀ m ∈ order, m ∉ l1.map (·.1) := by
      intro m hm
      have hmn : m ≠ n := fun e => hnd.1 (e ▸ hm)
      rcases g4 with ⟨-, rfl, -⟩ | ⟨-, v, -, -, rfl⟩ | ⟨-, f, -, rfl, -⟩
      · simp
      · simpa using hmn
      · simp
    have hpr : ∀ m ∈ order, (Present s1.self s1.tgt m ↔ Present st.self st.tgt m) := by
      intro m hm
      rw [present_after g2 m]
      exact ⟨fun h => h.elim id (fun h => absurd h (hl1 m hm)), .inl⟩
    refine ⟨s2, l1 ++ l2, e1 ++ e2, ?_, after_trans g2 k2, k3, ?_, ?_, ?_, ?_⟩
    · unfold dimLoop; rw [g1]; exact k1
    · rw [List.map_append]
      rcases g4 with ⟨-, rfl, -⟩ | ⟨-, v, -, -, rfl⟩ | ⟨-, f, -, rfl, -⟩
      · exact k4.cons _
      · exact k4.cons_cons _
      · exact k4.cons _
    · rw [List.map_append]
      rcases g4 with ⟨-, -, rfl⟩ | ⟨-, v, -, rfl, -⟩ | ⟨-, f, -, -, rfl⟩
      · exact k5.cons _
      · exact k5.cons _
      · exact k5.cons_cons _
    · intro m v
      rw [List.mem_append, k6 m v, hsome]
      constructor
      · rintro (h | ⟨h1, h2, h3⟩)
        · rcases g4 with ⟨-, rfl, -⟩ | ⟨hpn, w, hw, -, rfl⟩ | ⟨-, f, -, rfl, -⟩
          · cases h
          · rcases List.mem_singleton.1 h with h
            injection h with e1 e2
            subst e1; subst e2
            exact ⟨List.mem_cons_self .., hpn, w, hw, rfl⟩
          · cases h
        · exact ⟨List.mem_cons_of_mem _ h1, fun h => h2 ((hpr m h1).2 h), h3⟩
      · rintro ⟨h1, h2, h3⟩
        rcases List.mem_cons.1 h1 with rfl | h1
        · left
          obtain ⟨w, hw, rfl⟩ := h3
          rcases g4 with ⟨hpn, -, -⟩ | ⟨hpn, w', hw', -, rfl⟩ | ⟨-, f, hm, -, -⟩
          · exact absurd hpn h2
          · rw [innermost_unique hp hn hw.1 hw'.1]; exact List.mem_singleton.2 rfl
          · exfalso
            cases f with
            | none => exact hm w hw.1
            | some x => exact hw.2 (innermost_unique hp hn hw.1 hm.1 ▸ hm.2)
        · exact .inr ⟨h1, fun h => h2 ((hpr m h1).1 h), h3⟩
    · intro m f
      rw [List.mem_append, k7 m f]
      constructor
      · rintro (h | ⟨h1, h2, h3⟩)
        · rcases g4 with ⟨-, -, rfl⟩ | ⟨hpn, w, hw, rfl, -⟩ | ⟨hpn, f', hm, -, rfl⟩
          · cases h
          · cases h
          · rcases List.mem_singleton.1 h with h
            injection h with e1 e2
            subst e1; subst e2
            exact ⟨List.mem_cons_self .., hpn, hm⟩
        · exact ⟨List.mem_cons_of_mem _ h1, fun h => h2 ((hpr m h1).2 h), h3⟩
      · rintro ⟨h1, h2, h3⟩
        rcases List.mem_cons.1 h1 with rfl | h1
        · left
          rcases g4 with ⟨hpn, -, -⟩ | ⟨hpn, w, hw, -, -⟩ | ⟨-, f', hm, -, rfl⟩
          · exact absurd hpn h2
          · exfalso
            cases f with
            | none => exact h3 w hw.1
            | some x => exact hw.2 (innermost_unique hp hn hw.1 h3.1 ▸ h3.2)
          · have : f = f' := by
              cases f with
              | none =>
                cases f' with
                | none => rfl
                | some y => exact absurd hm.1 (h3 y)
              | some x =>
                cases f' with
                | none => exact absurd h3.1 (hm x)
                | some y => rw [innermost_unique hp hn h3.1 hm.1]
            rw [this]; exact List.mem_singleton.2 rfl
        · exact .inr ⟨h1, fun h => h2 ((hpr m h1).1 h), h3⟩

/-! ## Messages -/

theorem message_ne (a : Args) (var : DVar) (n : Str) (f : Option DVar) : message a var n f ≠ [] := by
  unfold message
  simp

theorem message_eq (a : Args) (var : DVar) (n : Str) (f : Option DVar) : message a var n f = complaint a var n f := by
  have e : ": Cannot find variable for dimension, ".toList = ": ".toList ++ "Cannot find variable for dimension, ".toList := by decide +kernel
  cases f <;> simp only [message, complaint, e, List.append_assoc, List.append_nil]

theorem addErr_nil (m : Str) : addErr [] m = m := rfl

theorem foldl_addErr : ∀ (ms : List Str) (e : Str), e ≠ [] → (∀ m ∈ ms, m ≠ []) →
    ms.foldl addErr e = VRef.sepBy "\n".toList (e :: ms)
  | [], e, _, _ => rfl
  | m :: ms, e, he, hm => by
    have h1 : addErr e m = e ++ "\n".toList ++ m := by
      unfold addErr; cases e with
      | nil => exact absurd rfl he
      | cons => rfl
    rw [List.foldl_cons, h1, foldl_addErr ms _ (by simp) fun x hx => hm x (List.mem_cons_of_mem _ hx)]
    cases ms with
    | nil => rfl
    | cons x xs =>
      show e ++ "\n".toList ++ m ++ "\n".toList ++ VRef.sepBy "\n".toList (x :: xs) =
        e ++ "\n".toList ++ (m ++ "\n".toList ++ VRef.sepBy "\n".toList (x :: xs))
      simp only [List.append_assoc]

theorem err_text (a : Args) (var : DVar) (errs : List (Str × Option DVar)) :
    errs.foldl (fun e p => addErr e (message a var p.1 p.2)) [] =
      VRef.sepBy "\n".toList (errs.map fun p => message a var p.1 p.2) := by
  have : errs.foldl (fun e p => addErr e (message a var p.1 p.2)) [] =
      (errs.map fun p => message a var p.1 p.2).foldl addErr [] := by rw [List.foldl_map]
  rw [this]
  have hne : ∀ m ∈ errs.map (fun p => message a var p.1 p.2), m ≠ [] := by
    intro m hm
    obtain ⟨p, -, rfl⟩ := List.mem_map.1 hm
    exact message_ne a var _ _
  generalize errs.map (fun p => message a var p.1 p.2) = ms at hne
  cases ms with
  | nil => rfl
  | cons m ms =>
    rw [List.foldl_cons, addErr_nil, foldl_addErr ms m (hne m (by simp)) fun x hx => hne x (List.mem_cons_of_mem _ hx)]

theorem sepBy_nil {ms : List Str} (h : ∀ m ∈ ms, m ≠ []) : VRef.sepBy "\n".toList ms = [] ↔ ms = [] := by
  cases ms with
  | nil => exact ⟨fun _ => rfl, fun _ => rfl⟩
  | cons m ms =>
    refine ⟨fun e => ?_, fun e => by cases e⟩
    exfalso
    have hm := h m (by simp)
    cases ms with
    | nil => exact hm e
    | cons x xs =>
      have e : m ++ "\n".toList ++ VRef.sepBy "\n".toList (x :: xs) = [] := e
      simp at e

/-! ## The theorems -/

/-- C92: every dimension of the variable gets a source.  For all nested dictionaries, all variables and all orders in
which the set of the names in its dimensions is iterated: nothing is raised; exactly the names that are in neither
dictionary and that an enclosing dictionary provides from a source that is not excluded are added, each once, to the
requested dictionary, behind what was there; the other dictionary is not changed; and the returned text has one
message for each name that has no source. -/
theorem C92_sources_partial (a : Args) (var : DVar) (self : Dict) (tgt : Option Dict) (dims order : List Str)
    (hE : Enumerates dims order) (hself : OnePerName self) (hp : ∀ e ∈ a.parents, OnePerName e)
    (ht : ∀ t, tgt = some t → OnePerName t ∧ Registered t ∧ t.entries ≠ []) (hn : tgt = none → Registered self) :
    ∃ (st : St) (added : List (Str × DVar)) (errs : List (Str × Option DVar)), addDims a var self tgt order = (st, none) ∧
      (∀ n v, (n, v) ∈ added ↔ Names dims n ∧ ¬Present self tgt n ∧
        ∃ w, Provides a n w ∧ v = asArgument (tgt.isSome && a.isCall) w) ∧
      (added.map (·.1)).Nodup ∧
      WentInto self tgt st added ∧
      (∀ n f, (n, f) ∈ errs ↔ Names dims n ∧ ¬Present self tgt n ∧ Missing a n f) ∧
      (errs.map (·.1)).Nodup ∧
      st.err = VRef.sepBy "\n".toList (errs.map fun p => complaint a var p.1 p.2) := by
  have hc : constName ∉ order := by
    intro h
    obtain ⟨dim, -, parts, -, -, -, -, -, h⟩ := (hE.2 _).1 h
    exact h rfl
  have hf : Fine ⟨self, tgt, []⟩ := by
    unfold Fine
    cases tgt with
    | none => exact ⟨hself, hn rfl⟩
    | some t => exact ⟨hself, ht t rfl⟩
  obtain ⟨st, added, errs, h1, h2, -, h4, h5, h6, h7⟩ := dimLoop_spec a var hp order _ hc hE.1 hf
  refine ⟨st, added, errs, h1, ?_, h4.nodup hE.1, h2.2, ?_, h5.nodup hE.1, h2.1.trans ((err_text a var errs).trans (by simp only [message_eq]))⟩
  · intro n v; rw [h6 n v, hE.2 n]
  · intro n f; rw [h7 n f, hE.2 n]

/-- C92: the returned text is empty exactly if every name has a source, and then all of them can be found. -/
theorem C92_empty_partial (a : Args) (var : DVar) (self : Dict) (tgt : Option Dict) (dims order : List Str)
    (hE : Enumerates dims order) (hself : OnePerName self) (hp : ∀ e ∈ a.parents, OnePerName e)
    (ht : ∀ t, tgt = some t → OnePerName t ∧ Registered t ∧ t.entries ≠ []) (hn : tgt = none → Registered self) :
    ∃ st, addDims a var self tgt order = (st, none) ∧
      (st.err = [] ↔ ∀ n, Names dims n → Present self tgt n ∨ ∃ v, Provides a n v) ∧
      (st.err = [] → ∀ n, Names dims n → Present st.self st.tgt n) := by
  obtain ⟨st, added, errs, h1, h2, -, h4, h5, -, h7⟩ :=
    C92_sources_partial a var self tgt dims order hE hself hp ht hn
  have hmsg : ∀ m ∈ errs.map (fun p => complaint a var p.1 p.2), m ≠ [] := by
    intro m hm
    obtain ⟨p, -, rfl⟩ := List.mem_map.1 hm
    exact message_eq a var _ _ ▸ message_ne a var _ _
  have hiff : st.err = [] ↔ ∀ n, Names dims n → Present self tgt n ∨ ∃ v, Provides a n v := by
    rw [h7, sepBy_nil hmsg, List.map_eq_nil_iff]
    constructor
    · intro e n hn
      by_cases hpr : Present self tgt n
      · exact .inl hpr
      by_cases hv : ∃ v, Provides a n v
      · exact .inr hv
      exfalso
      by_cases hin : ∃ v, Innermost a.parents n v
      · obtain ⟨v, hin⟩ := hin
        have : a.src v ∈ a.ignore := by
          by_cases hi : a.src v ∈ a.ignore
          · exact hi
          · exact absurd ⟨v, hin, hi⟩ hv
        have := (h5 n (some v)).2 ⟨hn, hpr, hin, this⟩
        rw [e] at this; cases this
      · have := (h5 n none).2 ⟨hn, hpr, fun v h => hin ⟨v, h⟩⟩
        rw [e] at this; cases this
    · intro h
      rw [List.eq_nil_iff_forall_not_mem]
      rintro ⟨n, f⟩ hm
      obtain ⟨g1, g2, g3⟩ := (h5 n f).1 hm
      rcases h n g1 with g | ⟨v, hv⟩
      · exact g2 g
      · have hnc : n ≠ constName := by
          obtain ⟨dim, -, parts, -, -, -, -, -, h⟩ := g1; exact h
        cases f with
        | none => exact g3 v hv.1
        | some x => exact hv.2 (innermost_unique hp hnc hv.1 g3.1 ▸ g3.2)
  refine ⟨st, h1, hiff, ?_⟩
  intro e n hnm
  by_cases hpr : Present self tgt n
  · rcases hpr with h | ⟨t, rfl, h⟩
    · cases tgt with
      | none => exact .inl ((has_append h4.2 n).2 (.inl h))
      | some t => rw [h4.1]; exact .inl h
    · obtain ⟨-, t', g1, g2⟩ := h4
      exact .inr ⟨t', g1, (has_append g2 n).2 (.inl h)⟩
  · rcases hiff.1 e n hnm with h | ⟨v, hv⟩
    · exact absurd h hpr
    · have hm := (h2 n _).2 ⟨hnm, hpr, v, hv, rfl⟩
      have hm' : n ∈ added.map (·.1) := List.mem_map.2 ⟨_, hm, rfl⟩
      cases tgt with
      | none => exact .inl ((has_append h4.2 n).2 (.inr hm'))
      | some t =>
        obtain ⟨-, t', g1, g2⟩ := h4
        exact .inr ⟨t', g1, (has_append g2 n).2 (.inr hm')⟩

theorem perm_of_mem {α : Type} {l1 l2 : List (Str × α)} (h1 : (l1.map (·.1)).Nodup) (h2 : (l2.map (·.1)).Nodup)
    (h : ∀ n v, (n, v) ∈ l1 ↔ (n, v) ∈ l2) : l1.Perm l2 :=
  (List.perm_ext_iff_of_nodup (List.Nodup.of_map _ h1) (List.Nodup.of_map _ h2)).2 fun p => h p.1 p.2

/-- C92: the order of the set does not matter for what is in the dictionaries. -/
theorem C92_order_partial (a : Args) (var : DVar) (self : Dict) (tgt : Option Dict) (dims o1 o2 : List Str)
    (h1 : Enumerates dims o1) (h2 : Enumerates dims o2) (hself : OnePerName self)
    (hp : ∀ e ∈ a.parents, OnePerName e)
    (ht : ∀ t, tgt = some t → OnePerName t ∧ Registered t ∧ t.entries ≠ []) (hn : tgt = none → Registered self) :
    ∃ s1 s2, addDims a var self tgt o1 = (s1, none) ∧ addDims a var self tgt o2 = (s2, none) ∧
      s1.self.entries.Perm s2.self.entries ∧
      (s1.tgt.map (·.entries)).isSome = (s2.tgt.map (·.entries)).isSome ∧
      (∀ t1 t2, s1.tgt = some t1 → s2.tgt = some t2 → t1.entries.Perm t2.entries) ∧
      (s1.err = [] ↔ s2.err = []) := by
  obtain ⟨s1, l1, e1, g1, g2, g3, g4, g5, g6, g7⟩ := C92_sources_partial a var self tgt dims o1 h1 hself hp ht hn
  obtain ⟨s2, l2, e2, k1, k2, k3, k4, k5, k6, k7⟩ := C92_sources_partial a var self tgt dims o2 h2 hself hp ht hn
  have hl : l1.Perm l2 := perm_of_mem g3 k3 fun n v => by rw [g2, k2]
  have he : e1.Perm e2 := perm_of_mem g6 k6 fun n v => by rw [g5, k5]
  refine ⟨s1, s2, g1, k1, ?_, ?_, ?_, ?_⟩
  · cases tgt with
    | none => rw [g4.2, k4.2]; exact hl.append_left _
    | some t => rw [g4.1, k4.1]
  · cases tgt with
    | none => rw [g4.1, k4.1]
    | some t =>
      obtain ⟨-, t1, a1, -⟩ := g4
      obtain ⟨-, t2, a2, -⟩ := k4
      rw [a1, a2]; rfl
  · intro t1 t2 b1 b2
    cases tgt with
    | none => rw [g4.1] at b1; cases b1
    | some t =>
      obtain ⟨-, t1', a1, c1⟩ := g4
      obtain ⟨-, t2', a2, c2⟩ := k4
      rw [a1] at b1; rw [a2] at b2
      injection b1 with b1; injection b2 with b2
      rw [← b1, ← b2, c1, c2]
      exact hl.append_left _
  · have m1 : ∀ m ∈ e1.map (fun p => complaint a var p.1 p.2), m ≠ [] := by
      intro m hm; obtain ⟨p, -, rfl⟩ := List.mem_map.1 hm; exact message_eq a var _ _ ▸ message_ne a var _ _
    have m2 : ∀ m ∈ e2.map (fun p => complaint a var p.1 p.2), m ≠ [] := by
      intro m hm; obtain ⟨p, -, rfl⟩ := List.mem_map.1 hm; exact message_eq a var _ _ ▸ message_ne a var _ _
    rw [g7, k7, sepBy_nil m1, sepBy_nil m2, List.map_eq_nil_iff, List.map_eq_nil_iff]
    constructor
    · rintro rfl; exact (List.Perm.nil_eq he).symm
    · rintro rfl; exact List.Perm.eq_nil he

end Ccpp.DimS
