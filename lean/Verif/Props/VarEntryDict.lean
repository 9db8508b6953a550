import Verif.Props.VarEntryRead
import Mathlib.Data.List.Induction
import Mathlib.Data.List.Forall2
/-!
# Proofs for C86: the dictionary of the properties
-/
namespace Ccpp.VE

open MF (Val)

theorem get_set (d : Dict) (k : Str) (v : Val) (j : Str) : (d.set k v).get j = if j = k then some v else d.get j := by
  unfold Dict.get
  induction d with
  | nil =>
    unfold Dict.set
    rw [List.lookup_cons]
    by_cases h : j = k
    · simp [h]
    · rw [beq_eq_false_iff_ne.2 h]; simp [h]
  | cons e d ih =>
    obtain ⟨a, w⟩ := e
    unfold Dict.set
    by_cases h : a = k
    · subst h
      rw [if_pos rfl, List.lookup_cons, List.lookup_cons]
      by_cases h' : j = a
      · simp [h']
      · simp [h', beq_eq_false_iff_ne.2 h']
    · rw [if_neg h, List.lookup_cons, List.lookup_cons, ih]
      by_cases h' : j = a
      · subst h'; simp [h]
      · simp [beq_eq_false_iff_ne.2 h']

theorem get_del (d : Dict) (k j : Str) : (d.del k).get j = if j = k then none else d.get j := by
  unfold Dict.get Dict.del
  induction d with
  | nil => simp
  | cons e d ih =>
    obtain ⟨a, w⟩ := e
    rw [List.filter_cons, List.lookup_cons]
    by_cases h : a = k
    · subst h
      simp only [bne_self_eq_false, Bool.false_eq_true, if_false, ih]
      by_cases h' : j = a
      · simp [h']
      · simp [h', beq_eq_false_iff_ne.2 h']
    · have : (a != k) = true := by simpa using h
      simp only [this, if_true, List.lookup_cons, ih]
      by_cases h' : j = a
      · subst h'; simp [h]
      · simp [beq_eq_false_iff_ne.2 h']

/-- Every key is there once. -/
def Unique (d : Dict) : Prop := (d.map Prod.fst).Nodup

theorem set_keys (d : Dict) (k : Str) (v : Val) : ∀ j, j ∈ (d.set k v).map Prod.fst ↔ j = k ∨ j ∈ d.map Prod.fst := by
  intro j
  induction d with
  | nil => simp [Dict.set]
  | cons e d ih =>
    obtain ⟨a, w⟩ := e
    unfold Dict.set
    by_cases h : a = k
    · subst h; simp
    · rw [if_neg h]
      simp only [List.map_cons, List.mem_cons, ih]
      tauto

theorem unique_set {d : Dict} (h : Unique d) (k : Str) (v : Val) : Unique (d.set k v) := by
  unfold Unique at *
  induction d with
  | nil => simp [Dict.set]
  | cons e d ih =>
    obtain ⟨a, w⟩ := e
    simp only [List.map_cons, List.nodup_cons] at h
    unfold Dict.set
    by_cases h' : a = k
    · subst h'; rw [if_pos rfl]; simpa using h
    · rw [if_neg h']
      simp only [List.map_cons, List.nodup_cons, set_keys, not_or]
      exact ⟨⟨h', h.1⟩, ih h.2⟩

theorem unique_del {d : Dict} (h : Unique d) (k : Str) : Unique (d.del k) := by
  unfold Unique Dict.del at *
  exact List.Sublist.nodup (List.Sublist.map _ List.filter_sublist) h

theorem mem_get {d : Dict} (h : Unique d) (k : Str) (v : Val) : (k, v) ∈ d ↔ d.get k = some v := by
  unfold Unique Dict.get at *
  induction d with
  | nil => simp
  | cons e d ih =>
    obtain ⟨a, w⟩ := e
    simp only [List.map_cons, List.nodup_cons] at h
    rw [List.lookup_cons, List.mem_cons]
    by_cases h' : k = a
    · subst h'
      simp only [beq_self_eq_true, Option.some.injEq, Prod.mk.injEq, true_and]
      constructor
      · rintro (rfl | hm)
        · rfl
        · exact absurd (List.mem_map_of_mem (f := Prod.fst) hm) h.1
      · intro h; exact .inl h.symm
    · rw [beq_eq_false_iff_ne.2 h']
      simp only [Prod.mk.injEq, h', false_and, false_or]
      exact ih h.2

/-- What an entry gives. -/
def Gives (fl : Str → Option Num) (skip : Bool) (known : List Str) (e : Str × Str) (kv : Str × Val) : Prop :=
  (IsDerived e ∧ (skip = true ∨ e.2 ∈ known) ∧ kv = ("ddt_type".toList, .text e.2)) ∨ (¬ IsDerived e ∧ kv.1 = e.1 ∧ Means fl e.1 e.2 kv.2)

theorem derived_iff (e : Str × Str) : (e.1 = "type".toList ∧ RC.isIntrinsic e.2 = false) ↔ IsDerived e := by
  unfold IsDerived
  rw [← intrinsic_iff, Bool.not_eq_true]

/-- The names that are registered after an entry. -/
def regAfter (skip : Bool) (reg : List Str) (e : Str × Str) : List Str :=
  if e.1 = "type".toList ∧ RC.isIntrinsic e.2 = false ∧ skip = true then RC.registerDdt reg e.2 else reg

variable {fl : Str → Option Num} {skip : Bool} {known : List Str}

theorem step_good {s : St} (hs : s.ok = true) {e : Str × Str} (hc : Clean e.2) {kv : Str × Val} (h : Gives fl skip known e kv) :
    ∃ p, step fl skip known s e = .ok { dict := s.dict.set kv.1 kv.2, ok := true, pval := p, reg := regAfter skip s.reg e } := by
  unfold step
  rcases h with ⟨hd, hk, rfl⟩ | ⟨hd, h1, h2⟩
  · rw [if_pos ((derived_iff e).2 hd), if_pos (by simpa using hk)]
    refine ⟨some (some (.text e.2)), ?_⟩
    unfold St.add regAfter
    simp only [hs, if_true]
    rw [rangesOf_ne (by decide)]
    have := (derived_iff e).2 hd
    cases skip <;> simp [this.1, this.2]
  · rw [if_neg (fun h => hd ((derived_iff e).1 h))]
    have hr : rd fl s.reg e.1 e.2 = some kv.2 := (rd_iff fl s.reg hc (fun h => by
      by_contra hi; exact hd ⟨h, hi⟩) _).2 h2
    unfold rd at hr
    have hreg : regAfter skip s.reg e = s.reg := by
      unfold regAfter
      rw [if_neg]
      rintro ⟨a, b, -⟩
      exact hd ((derived_iff e).1 ⟨a, b⟩)
    cases hg : getProp e.1 with
    | none => rw [hg] at hr; cases hr
    | some p =>
      rw [hg] at hr
      simp only [Option.bind_some] at hr
      cases hv : validValue fl s.reg p (.text e.2) none false with
      | val v =>
        rw [hv] at hr
        simp only [Option.some.injEq] at hr
        refine ⟨some (some v), ?_⟩
        simp only [hv]
        unfold St.add
        simp only [hs, if_true]
        rw [hr, h1, hreg]
      | none => rw [hv] at hr; cases hr
      | error => rw [hv] at hr; cases hr
      | crash x => rw [hv] at hr; cases hr

theorem step_bad {s s' : St} {e : Str × Str} (hc : Clean e.2) (h : step fl skip known s e = .ok s') (hs' : s'.ok = true) :
    s.ok = true ∧ ∃ kv, Gives fl skip known e kv := by
  unfold step at h
  split at h
  · next hd =>
    split at h
    · next hk =>
      cases h
      refine ⟨?_, _, .inl ⟨(derived_iff e).1 hd, by simpa using hk, rfl⟩⟩
      unfold St.add at hs'
      cases hh : s.ok with
      | true => rfl
      | false => simp [hh] at hs'
    · cases h; cases hs'
  · next hd =>
    have hd' : ¬ IsDerived e := fun h => hd ((derived_iff e).2 h)
    cases hg : getProp e.1 with
    | none =>
      rw [hg] at h
      simp only at h
      split at h
      · cases h
      · cases h; cases hs'
    | some p =>
      rw [hg] at h
      simp only at h
      cases hv : validValue fl s.reg p (.text e.2) none false with
      | val v =>
        rw [hv] at h
        simp only at h
        cases h
        constructor
        · unfold St.add at hs'
          cases hh : s.ok with
          | true => rfl
          | false => simp [hh] at hs'
        · have hr : rd fl s.reg e.1 e.2 = some (MF.rangesOf e.1 v) := by
            unfold rd; rw [hg]; simp [hv]
          refine ⟨(e.1, MF.rangesOf e.1 v), .inr ⟨hd', rfl, ?_⟩⟩
          exact (rd_iff fl s.reg hc (fun h => by by_contra hi; exact hd' ⟨h, hi⟩) _).1 hr
      | none => rw [hv] at h; simp only at h; cases h; cases hs'
      | error => rw [hv] at h; cases h
      | crash x => rw [hv] at h; cases h

/-- The dictionary after some assignments. -/
def assigned (d : Dict) (kvs : List (Str × Val)) : Dict := kvs.foldl (fun d kv => d.set kv.1 kv.2) d

theorem steps_good {es : List (Str × Str)} (hc : ∀ e ∈ es, Clean e.2) {kvs : List (Str × Val)} (h : List.Forall₂ (Gives fl skip known) es kvs) :
    ∀ {s : St}, s.ok = true → ∃ p, steps fl skip known s es =
      .ok { dict := assigned s.dict kvs, ok := true, pval := p, reg := es.foldl (regAfter skip) s.reg } := by
  induction h with
  | nil => intro s hs; exact ⟨s.pval, by cases s; cases hs; rfl⟩
  | @cons e kv es kvs h1 _ ih =>
    intro s hs
    obtain ⟨p, hp⟩ := step_good hs (hc e (by simp)) h1
    obtain ⟨q, hq⟩ := ih (fun e he => hc e (by simp [he])) (s := { dict := s.dict.set kv.1 kv.2, ok := true, pval := p, reg := regAfter skip s.reg e }) rfl
    refine ⟨q, ?_⟩
    unfold steps
    rw [hp]
    exact hq

theorem steps_bad {es : List (Str × Str)} (hc : ∀ e ∈ es, Clean e.2) : ∀ {s s' : St}, steps fl skip known s es = .ok s' → s'.ok = true →
    s.ok = true ∧ ∃ kvs, List.Forall₂ (Gives fl skip known) es kvs := by
  induction es with
  | nil => intro s s' h hs'; cases h; exact ⟨hs', [], .nil⟩
  | cons e es ih =>
    intro s s' h hs'
    unfold steps at h
    cases h1 : step fl skip known s e with
    | error r => rw [h1] at h; cases h
    | ok t =>
      rw [h1] at h
      obtain ⟨ht, kvs, hk⟩ := ih (fun e he => hc e (by simp [he])) (s := t) h hs'
      obtain ⟨hs, kv, hkv⟩ := step_bad (hc e (by simp)) h1 ht
      exact ⟨hs, kv :: kvs, .cons hkv hk⟩

/-- If all entries are legal they give values. -/
theorem gives_of_legal {es : List (Str × Str)} (h : ∀ e ∈ es, Legal fl skip known e) : ∃ kvs, List.Forall₂ (Gives fl skip known) es kvs := by
  induction es with
  | nil => exact ⟨[], .nil⟩
  | cons e es ih =>
    obtain ⟨kvs, hk⟩ := ih fun e he => h e (by simp [he])
    rcases h e (by simp) with ⟨h1, h2⟩ | ⟨h1, v, h2⟩
    · exact ⟨("ddt_type".toList, .text e.2) :: kvs, .cons (.inl ⟨h1, h2, rfl⟩) hk⟩
    · exact ⟨(e.1, v) :: kvs, .cons (.inr ⟨h1, rfl, h2⟩) hk⟩

theorem legal_of_gives {es : List (Str × Str)} {kvs} (h : List.Forall₂ (Gives fl skip known) es kvs) : ∀ e ∈ es, Legal fl skip known e := by
  induction h with
  | nil => intro e he; cases he
  | cons h1 _ ih =>
    intro e he
    rcases List.mem_cons.1 he with rfl | he
    · rcases h1 with ⟨a, b, -⟩ | ⟨a, -, b⟩
      · exact .inl ⟨a, b⟩
      · exact .inr ⟨a, _, b⟩
    · exact ih e he

theorem last_snoc (P : Str × Str → Prop) (es : List (Str × Str)) (e : Str × Str) (s : Str) :
    Last P (es ++ [e]) s ↔ (P e ∧ e.2 = s) ∨ (¬ P e ∧ Last P es s) := by
  constructor
  · intro h
    generalize hl : es ++ [e] = l at h
    cases h with
    | @mk xs ys f _ h1 h2 h3 =>
      rcases List.eq_nil_or_concat ys with rfl | ⟨zs, g, rfl⟩
      · obtain ⟨rfl, hf⟩ := List.append_inj' hl rfl
        cases hf
        exact .inl ⟨h1, h2⟩
      · have : es ++ [e] = (xs ++ f :: zs) ++ [g] := by simpa using hl
        obtain ⟨rfl, hf⟩ := List.append_inj' this rfl
        cases hf
        exact .inr ⟨h3 e (by simp), .mk h1 h2 fun f hf => h3 f (by simp [hf])⟩
  · rintro (⟨h1, h2⟩ | ⟨h1, h⟩)
    · exact .mk h1 h2 (by simp)
    · cases h with
      | @mk xs ys f _ h2 h3 h4 =>
        have : (xs ++ f :: ys) ++ [e] = xs ++ f :: (ys ++ [e]) := by simp
        rw [this]
        refine .mk h2 h3 ?_
        intro g hg
        rcases List.mem_append.1 hg with hg | hg
        · exact h4 g hg
        · rw [List.mem_singleton.1 hg]; exact h1

theorem means_not_ddt {k s : Str} {v : Val} (h : Means fl k s v) : k ≠ "ddt_type".toList := by
  cases h with
  | free h => rintro rfl; revert h; decide
  | flag h => rintro rfl; revert h; decide
  | _ => decide

theorem means_unique {k s : Str} {v w : Val} (h : Means fl k s v) (h' : Means fl k s w) (hc : Clean s) (ht : k = "type".toList → Intrinsic s) : v = w :=
  Option.some.inj (((rd_iff fl [] hc ht v).2 h).symm.trans ((rd_iff fl [] hc ht w).2 h'))

theorem written_derived (name : Str) (es : List (Str × Str)) {e : Str × Str} (hd : IsDerived e) (k : Str) (v : Val) :
    Written fl name (es ++ [e]) k v ↔ (k = "ddt_type".toList ∧ v = .text e.2) ∨ (k ≠ "ddt_type".toList ∧ Written fl name es k v) := by
  constructor
  · rintro (⟨h, s, h1, h2⟩ | ⟨h, s, h1, h2⟩ | ⟨h, h1, h2⟩)
    · rcases (last_snoc _ _ _ _).1 h1 with ⟨-, h3⟩ | ⟨h3, -⟩
      · exact .inl ⟨h, by rw [h2, h3]⟩
      · exact absurd hd h3
    · rcases (last_snoc _ _ _ _).1 h1 with ⟨⟨-, h3⟩, -⟩ | ⟨-, h3⟩
      · exact absurd hd h3
      · exact .inr ⟨h, .inr (.inl ⟨h, s, h3, h2⟩)⟩
    · have hk : k ≠ "ddt_type".toList := by rw [h]; decide
      exact .inr ⟨hk, .inr (.inr ⟨h, fun f hf => h1 f (List.mem_append_left _ hf), h2⟩)⟩
  · rintro (⟨h, h2⟩ | ⟨h, (⟨h', -⟩ | ⟨-, s, h1, h2⟩ | ⟨h', h1, h2⟩)⟩)
    · exact .inl ⟨h, e.2, (last_snoc _ _ _ _).2 (.inl ⟨hd, rfl⟩), h2⟩
    · exact absurd h' h
    · exact .inr (.inl ⟨h, s, (last_snoc _ _ _ _).2 (.inr ⟨fun h => h.2 hd, h1⟩), h2⟩)
    · refine .inr (.inr ⟨h', ?_, h2⟩)
      intro f hf
      rcases List.mem_append.1 hf with hf | hf
      · exact h1 f hf
      · rw [List.mem_singleton.1 hf, hd.1, h']; decide

theorem written_plain (name : Str) (es : List (Str × Str)) {e : Str × Str} (hd : ¬ IsDerived e) (hc : Clean e.2) {w : Val}
    (hm : Means fl e.1 e.2 w) (k : Str) (v : Val) :
    Written fl name (es ++ [e]) k v ↔ (k = e.1 ∧ v = w) ∨ (k ≠ e.1 ∧ Written fl name es k v) := by
  have hnd := means_not_ddt hm
  constructor
  · rintro (⟨h, s, h1, h2⟩ | ⟨h, s, h1, h2⟩ | ⟨h, h1, h2⟩)
    · rcases (last_snoc _ _ _ _).1 h1 with ⟨h3, -⟩ | ⟨-, h3⟩
      · exact absurd h3 hd
      · exact .inr ⟨fun h' => hnd (h' ▸ h), .inl ⟨h, s, h3, h2⟩⟩
    · rcases (last_snoc _ _ _ _).1 h1 with ⟨⟨h4, h5⟩, h3⟩ | ⟨h4, h3⟩
      · subst h4; subst h3
        exact .inl ⟨rfl, means_unique h2 hm hc fun h => by by_contra hi; exact hd ⟨h, hi⟩⟩
      · exact .inr ⟨fun h' => h4 ⟨h'.symm, hd⟩, .inr (.inl ⟨h, s, h3, h2⟩)⟩
    · exact .inr ⟨fun h' => h1 e (by simp) h'.symm, .inr (.inr ⟨h, fun f hf => h1 f (List.mem_append_left _ hf), h2⟩)⟩
  · rintro (⟨rfl, rfl⟩ | ⟨h, (⟨h', s, h1, h2⟩ | ⟨h', s, h1, h2⟩ | ⟨h', h1, h2⟩)⟩)
    · exact .inr (.inl ⟨hnd, e.2, (last_snoc _ _ _ _).2 (.inl ⟨⟨rfl, hd⟩, rfl⟩), hm⟩)
    · exact .inl ⟨h', s, (last_snoc _ _ _ _).2 (.inr ⟨hd, h1⟩), h2⟩
    · exact .inr (.inl ⟨h', s, (last_snoc _ _ _ _).2 (.inr ⟨fun h3 => h h3.1.symm, h1⟩), h2⟩)
    · refine .inr (.inr ⟨h', ?_, h2⟩)
      intro f hf
      rcases List.mem_append.1 hf with hf | hf
      · exact h1 f hf
      · rw [List.mem_singleton.1 hf]; exact fun h3 => h h3.symm

/-- The dictionary after the loop contains what is written. -/
theorem written_iff (name : Str) {es : List (Str × Str)} (hc : ∀ e ∈ es, Clean e.2) : ∀ {kvs : List (Str × Val)},
    List.Forall₂ (Gives fl skip known) es kvs → ∀ k v, (assigned [("local_name".toList, .text name)] kvs).get k = some v ↔ Written fl name es k v := by
  induction es using List.reverseRec with
  | nil =>
    intro kvs h k v
    cases h
    have hnil : ∀ P s, ¬ Last P [] s := by
      intro P s h
      generalize hl : ([] : List (Str × Str)) = l at h
      cases h
      simp at hl
    unfold Written
    simp only [hnil, false_and, exists_false, and_false, false_or, List.not_mem_nil, false_implies, implies_true, true_and]
    show Dict.get [("local_name".toList, .text name)] k = some v ↔ _
    unfold Dict.get
    rw [List.lookup_cons]
    by_cases h' : k = "local_name".toList
    · simp [h', eq_comm]
    · rw [beq_eq_false_iff_ne.2 h']
      exact ⟨fun h => (by cases h), fun h => absurd h.1 h'⟩
  | append_singleton es e ih =>
    intro kvs h k v
    obtain ⟨kvs', l, h1, h2, rfl⟩ : ∃ a b, List.Forall₂ (Gives fl skip known) es a ∧ List.Forall₂ (Gives fl skip known) [e] b ∧ kvs = a ++ b :=
      ⟨kvs.take es.length, kvs.drop es.length, by simpa using List.forall₂_take es.length h, by simpa using List.forall₂_drop es.length h,
        (List.take_append_drop _ _).symm⟩
    cases h2 with
    | @cons _ kv _ _ hg hnil =>
    cases hnil
    have ih' := ih (fun e he => hc e (by simp [he])) h1
    have hce := hc e (by simp)
    have : assigned [("local_name".toList, .text name)] (kvs' ++ [kv]) = (assigned [("local_name".toList, .text name)] kvs').set kv.1 kv.2 := by
      unfold assigned; rw [List.foldl_append]; rfl
    rw [this, get_set]
    rcases hg with ⟨hd, -, hkv⟩ | ⟨hd, hk, hm⟩
    · obtain ⟨a, w⟩ := kv
      obtain ⟨h1, h2⟩ := Prod.mk.inj hkv
      rw [written_derived name es hd, ← h1, ← h2]
      by_cases h' : k = a
      · rw [if_pos h']
        exact ⟨fun h => .inl ⟨h', (Option.some.inj h).symm⟩, fun h => h.elim (fun h => by rw [h.2]) fun h => absurd h' h.1⟩
      · rw [if_neg h', ih']
        exact ⟨fun h => .inr ⟨h', h⟩, fun h => h.elim (fun h => absurd h.1 h') And.right⟩
    · rw [written_plain name es hd hce hm, ← hk]
      by_cases h' : k = kv.1
      · rw [if_pos h']
        exact ⟨fun h => .inl ⟨h', (Option.some.inj h).symm⟩, fun h => h.elim (fun h => by rw [h.2]) fun h => absurd h' h.1⟩
      · rw [if_neg h', ih']
        exact ⟨fun h => .inr ⟨h', h⟩, fun h => h.elim (fun h => absurd h.1 h') And.right⟩

theorem unique_assigned {d : Dict} (h : Unique d) (kvs : List (Str × Val)) : Unique (assigned d kvs) := by
  induction kvs generalizing d with
  | nil => exact h
  | cons kv kvs ih => exact ih (unique_set h kv.1 kv.2)

theorem reg_mem (reg : List Str) (es : List (Str × Str)) (t : Str) : t ∈ es.foldl (regAfter skip) reg ↔
    t ∈ reg ∨ (skip = true ∧ ∃ e ∈ es, IsDerived e ∧ e.2 = t) := by
  induction es generalizing reg with
  | nil => simp
  | cons e es ih =>
    rw [List.foldl_cons, ih]
    have h1 : t ∈ regAfter skip reg e ↔ t ∈ reg ∨ (skip = true ∧ IsDerived e ∧ e.2 = t) := by
      unfold regAfter RC.registerDdt
      rw [← derived_iff]
      by_cases hs : skip = true
      · by_cases hd : e.1 = "type".toList ∧ RC.isIntrinsic e.2 = false
        · rw [if_pos ⟨hd.1, hd.2, hs⟩]
          split
          · next hm =>
            simp only [List.contains_iff_mem] at hm
            constructor
            · exact .inl
            · rintro (h | ⟨-, -, rfl⟩)
              · exact h
              · exact hm
          · simp only [List.mem_append, List.mem_singleton]
            constructor
            · rintro (h | rfl)
              · exact .inl h
              · exact .inr ⟨hs, hd, rfl⟩
            · rintro (h | ⟨-, -, rfl⟩)
              · exact .inl h
              · exact .inr rfl
        · rw [if_neg fun h => hd ⟨h.1, h.2.1⟩]
          exact ⟨.inl, fun h => h.elim id fun h => absurd h.2.1 hd⟩
      · rw [if_neg fun h => hs h.2.2]
        simp [hs]
    rw [h1]
    simp only [List.mem_cons]
    constructor
    · rintro ((h | ⟨h, h', h''⟩) | ⟨h, f, hf, h'⟩)
      · exact .inl h
      · exact .inr ⟨h, e, .inl rfl, h', h''⟩
      · exact .inr ⟨h, f, .inr hf, h'⟩
    · rintro (h | ⟨h, f, (rfl | hf), h'⟩)
      · exact .inl (.inl h)
      · exact .inl (.inr ⟨h, h'⟩)
      · exact .inr ⟨h, f, hf, h'⟩

end Ccpp.VE
