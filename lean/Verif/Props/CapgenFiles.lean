import Verif.Spec.CapgenFiles
import Verif.Props.MetadataFileMain
/-!
# C87: lemmas
-/
namespace Ccpp.CF

open Ccpp.FDecl (Str)
open Ccpp.MF

theorem uptoDot_none {s : Str} : uptoDot s = none ↔ '.' ∉ s := by
  induction s with
  | nil => simp [uptoDot]
  | cons c s ih =>
    unfold uptoDot
    cases h : uptoDot s with
    | some p =>
      have : '.' ∈ s := by
        refine Classical.byContradiction fun hn => ?_
        rw [ih.2 hn] at h; cases h
      simp [this]
    | none =>
      have := ih.1 h
      by_cases hc : c = '.'
      · simp [hc]
      · simp [hc, this, Ne.symm hc]

theorem uptoDot_some {s b : Str} : uptoDot s = some b ↔ ∃ p q, s = p ++ '.' :: q ∧ '.' ∉ q ∧ b = p ++ ['.'] := by
  induction s generalizing b with
  | nil => simp [uptoDot]
  | cons c s ih =>
    unfold uptoDot
    cases h : uptoDot s with
    | some p0 =>
      obtain ⟨p, q, rfl, h2, rfl⟩ := ih.1 h
      simp only [Option.some.injEq]
      constructor
      · rintro rfl
        exact ⟨c :: p, q, rfl, h2, rfl⟩
      · rintro ⟨p', q', h3, h4, rfl⟩
        cases p' with
        | nil =>
          exfalso
          simp only [List.nil_append, List.cons.injEq] at h3
          exact h4 (by rw [← h3.2]; simp)
        | cons c' p' =>
          simp only [List.cons_append, List.cons.injEq] at h3
          have := (ih (b := p' ++ ['.'])).2 ⟨p', q', h3.2, h4, rfl⟩
          rw [h] at this
          simp only [Option.some.injEq] at this
          simp [this, h3.1]
    | none =>
      have hn := uptoDot_none.1 h
      by_cases hc : c = '.'
      · simp only [hc, if_true, Option.some.injEq]
        constructor
        · rintro rfl
          exact ⟨[], s, rfl, hn, rfl⟩
        · rintro ⟨p', q', h3, h4, rfl⟩
          cases p' with
          | nil => rfl
          | cons c' p' =>
            exfalso
            simp only [List.cons_append, List.cons.injEq] at h3
            exact hn (by rw [h3.2]; simp)
      · simp only [hc, if_false]
        constructor
        · intro h; cases h
        · rintro ⟨p', q', h3, h4, rfl⟩
          cases p' with
          | nil => simp only [List.nil_append, List.cons.injEq] at h3; exact absurd h3.1 hc
          | cons c' p' =>
            exfalso
            simp only [List.cons_append, List.cons.injEq] at h3
            exact hn (by rw [h3.2]; simp)

/-- The base of the name. -/
def baseOf (name : Str) : Str := match uptoDot name with
  | some b => b
  | none => name ++ ['.']

theorem replaces_iff (name ext path : Str) : Replaces name ext path ↔ path = baseOf name ++ ext := by
  unfold Replaces baseOf
  cases h : uptoDot name with
  | none =>
    have hn := uptoDot_none.1 h
    simp only
    constructor
    · rintro (⟨p, q, rfl, _⟩ | ⟨_, rfl⟩)
      · exact absurd (by simp) hn
      · simp
    · rintro rfl
      exact .inr ⟨hn, by simp⟩
  | some b =>
    obtain ⟨p, q, h1, h2, rfl⟩ := uptoDot_some.1 h
    simp only
    constructor
    · rintro (⟨p', q', h3, h4, rfl⟩ | ⟨h3, _⟩)
      · have := uptoDot_some.2 ⟨p', q', h3, h4, rfl⟩
        rw [h, Option.some.injEq, List.append_cancel_right_eq] at this
        simp [this]
      · exact absurd (by simp [h1]) h3
    · rintro rfl
      exact .inl ⟨p, q, h1, h2, by simp⟩

theorem findFortran_iff (exist : Str → Bool) (name path : Str) :
    findFortran exist name = some path ↔ FortranOf (fun n => exist n = true) name path := by
  have hd : findFortran exist name = (extensions.map (baseOf name ++ ·)).find? exist := rfl
  rw [hd, List.find?_eq_some_iff_getElem]
  unfold FortranOf
  constructor
  · rintro ⟨h1, i, hi, h2, h3⟩
    rw [List.length_map] at hi
    refine ⟨i, extensions[i], List.getElem?_eq_getElem hi, ?_, h1, ?_⟩
    · rw [replaces_iff, ← h2, List.getElem_map]
    · intro j e p hj he hp hx
      have := h3 j hj
      rw [List.getElem_map] at this
      rw [replaces_iff] at hp
      have he' : extensions[j]'(by omega) = e := by
        have h4 := List.getElem?_eq_getElem (l := extensions) (i := j) (by omega)
        rw [show extensions[j]? = some e from he] at h4
        exact (Option.some.inj h4).symm
      rw [he', ← hp, hx] at this
      cases this
  · rintro ⟨i, ext, h1, h2, h3, h4⟩
    refine ⟨h3, i, ?_, ?_, ?_⟩
    · rw [List.length_map]; exact (List.getElem?_eq_some_iff.1 h1).1
    · rw [List.getElem_map, (replaces_iff _ _ _).1 h2]
      exact congrArg _ (List.getElem?_eq_some_iff.1 h1).2
    · intro j hj
      have hlt : j < extensions.length := by
        have := (List.getElem?_eq_some_iff.1 h1).1
        exact Nat.lt_trans hj this
      rw [List.getElem_map]
      have := h4 j extensions[j] _ hj (List.getElem?_eq_getElem hlt) ((replaces_iff _ _ _).2 rfl)
      simpa using this

/-- Meaning depends only on which types are known and registered. -/
theorem fileMeans_congr {env : Env} {ty ty' : Types} (hk : ∀ n, n ∈ ty.known ↔ n ∈ ty'.known)
    (hr : ∀ n, n ∈ ty.registered ↔ n ∈ ty'.registered) (docs : List TableDoc) (ts : List Table) :
    FileMeans env ty docs ts ↔ FileMeans env ty' docs ts := by
  unfold FileMeans
  simp only [hk, hr]

theorem parseFile_types {env : Env} (hok : env.Ok) {ty ty' : Types} {lines : List Str} {ts : List Table}
    (h : parseFile env ty lines = some (ts, ty')) :
    (∀ n, n ∈ ty'.known ↔ n ∈ ty.known ∨ n ∈ ddtNames ts) ∧
    (∀ n, n ∈ ty'.registered ↔ n ∈ ty.registered ∨ n ∈ ddtSections ts) := by
  unfold parseFile at h
  simp only at h
  split at h
  · exact tables_known hok (chunks_split tableStart _).2.2 (by simp [ddtNames]) (by simp [ddtSections]) h
  · cases h

/-- The title of a ddt section is the name of its table. -/
theorem ddt_section {env : Env} {ty : Types} {docs : List TableDoc} {ts : List Table} (h : FileMeans env ty docs ts)
    {s : Section} (hs : s ∈ sectionsOf ts) (hd : s.type = "ddt".toList) : s.title ∈ ddtNames ts := by
  unfold sectionsOf at hs
  rw [List.mem_flatMap] at hs
  obtain ⟨t, ht, hst⟩ := hs
  obtain ⟨i, hi⟩ := List.mem_iff_getElem?.1 ht
  have hlt : i < docs.length := by rw [h.2.1]; exact (List.getElem?_eq_some_iff.1 hi).1
  have hm := h.2.2 i docs[i] t (List.getElem?_eq_getElem hlt) hi
  obtain ⟨d, _, hsm⟩ := hm.sects.mem_right hst
  obtain ⟨n, hn1, hn2⟩ := hsm.sameName
  rw [if_neg (by rw [hd]; decide)] at hn2
  unfold ddtNames
  rw [List.mem_filterMap]
  exact ⟨t, ht, by rw [if_pos (by rw [hsm.sameType, hd])]; rw [hn1, hn2]⟩

/-- Entries of the table dictionary. -/
def tableEntries (ts : List Table) : List (Option Str × Table) := ts.map fun t => (t.name, t)

/-- Entries of the header dictionary. -/
def headerEntries (file : Str) (hs : List Section) : List (Str × Section × Str) := hs.map fun h => (h.title, h, file)

theorem addTables_ok (s : St) (ts : List Table) (hn : (s.tables.map (·.1) ++ ts.map (·.name)).Nodup) :
    addTables s ts = .ok { s with tables := s.tables ++ tableEntries ts } := by
  induction ts generalizing s with
  | nil => simp [addTables, tableEntries]
  | cons t ts ih =>
    unfold addTables
    rw [if_neg]
    · rw [ih]
      · simp [tableEntries]
      · simpa using hn
    · intro h
      obtain ⟨e, he, heq⟩ := List.any_eq_true.1 h
      rw [List.nodup_append] at hn
      exact hn.2.2 e.1 (List.mem_map_of_mem he) t.name (by simp) (eq_of_beq heq)

theorem addTables_dup (s : St) (ts : List Table) (h0 : (s.tables.map (·.1)).Nodup)
    (hn : ¬ (s.tables.map (·.1) ++ ts.map (·.name)).Nodup) : addTables s ts = .crash (tableDuplicate s) ∨
      ∃ c a t b, ts = a ++ t :: b ∧ a ≠ [] ∧ addTables s ts = .crash c := by
  induction ts generalizing s with
  | nil => simp [h0] at hn
  | cons t ts ih =>
    unfold addTables
    by_cases h : (s.tables.any fun e => e.1 == t.name) = true
    · rw [if_pos h]; exact .inl rfl
    · rw [if_neg h]
      right
      have h1 : (({ s with tables := s.tables ++ [(t.name, t)] } : St).tables.map (·.1)).Nodup := by
        simp only [List.map_append, List.map_cons, List.map_nil, List.nodup_append]
        refine ⟨h0, by simp, ?_⟩
        intro x hx y hy
        simp only [List.mem_singleton] at hy
        subst hy
        rintro rfl
        rw [List.mem_map] at hx
        obtain ⟨e, he, h2⟩ := hx
        exact h (List.any_eq_true.2 ⟨e, he, by simp [h2]⟩)
      have hne : ts ≠ [] := by
        rintro rfl
        exact hn (by simpa using h1)
      obtain ⟨u, us, rfl⟩ := List.exists_cons_of_ne_nil hne
      rcases ih { s with tables := s.tables ++ [(t.name, t)] } h1 (by simpa using hn) with h3 | ⟨c, _, _, _, _, _, h3⟩
      · exact ⟨_, [t], u, us, rfl, by simp, h3⟩
      · exact ⟨c, [t], u, us, rfl, by simp, h3⟩

theorem addTables_crash (s : St) (ts : List Table) (h0 : (s.tables.map (·.1)).Nodup)
    (hn : ¬ (s.tables.map (·.1) ++ ts.map (·.name)).Nodup) : ∃ c, addTables s ts = .crash c := by
  rcases addTables_dup s ts h0 hn with h | ⟨c, _, _, _, _, _, h⟩
  · exact ⟨_, h⟩
  · exact ⟨c, h⟩

/-- The state after adding headers. -/
def withHeaders (file : Str) (s : St) (hs : List Section) : St :=
  { s with headers := s.headers ++ headerEntries file hs, header := (hs.getLast?.map (·.title)).or s.header,
           types := { s.types with
             known := s.types.known ++ (hs.filter fun h => h.type = "ddt".toList).map (·.title) } }

theorem addHeaders_ok (file : Str) (s : St) (hs : List Section) (hn : (s.headers.map (·.1) ++ hs.map (·.title)).Nodup) :
    addHeaders file s hs = .ok (withHeaders file s hs) := by
  induction hs generalizing s with
  | nil => simp [addHeaders, withHeaders, headerEntries]
  | cons h hs ih =>
    unfold addHeaders
    have hf : s.headers.find? (fun e => e.1 == h.title) = none := by
      rw [List.find?_eq_none]
      intro e he heq
      rw [List.nodup_append] at hn
      exact hn.2.2 e.1 (List.mem_map_of_mem he) h.title (by simp) (eq_of_beq heq)
    rw [hf]
    simp only
    rw [ih _ (by simpa using hn)]
    unfold withHeaders headerEntries
    generalize "ddt".toList = w
    by_cases hd : h.type = w
    · cases hs <;> simp [hd, List.getLast?_cons]
    · cases hs <;> simp [hd, List.getLast?_cons]

theorem addHeaders_dup (file : Str) (s : St) (hs : List Section) (h0 : (s.headers.map (·.1)).Nodup)
    (hn : ¬ (s.headers.map (·.1) ++ hs.map (·.title)).Nodup) :
    ∃ a h b o, hs = a ++ h :: b ∧ addHeaders file s hs = .duplicate h.title file o ∧
      ∃ e ∈ s.headers ++ headerEntries file a, e.1 = h.title ∧ e.2.2 = o := by
  induction hs generalizing s with
  | nil => simp [h0] at hn
  | cons h hs ih =>
    unfold addHeaders
    cases hf : s.headers.find? (fun e => e.1 == h.title) with
    | some e =>
      refine ⟨[], h, hs, e.2.2, rfl, rfl, e, ?_, ?_, rfl⟩
      · simp [List.mem_of_find?_eq_some hf]
      · have := List.find?_some hf; exact eq_of_beq this
    | none =>
      simp only
      rw [List.find?_eq_none] at hf
      have h1 : ((s.headers ++ [(h.title, h, file)]).map (·.1)).Nodup := by
        simp only [List.map_append, List.map_cons, List.map_nil, List.nodup_append]
        refine ⟨h0, by simp, ?_⟩
        intro x hx y hy
        simp only [List.mem_singleton] at hy
        subst hy
        rintro rfl
        rw [List.mem_map] at hx
        obtain ⟨e, he, h2⟩ := hx
        exact hf e he (by simp [h2])
      obtain ⟨a, x, b, o, rfl, h3, e, he, h4⟩ := ih
        { s with headers := s.headers ++ [(h.title, h, file)], header := some h.title,
                 types := { s.types with
                   known := if h.type = "ddt".toList then s.types.known ++ [h.title] else s.types.known } } h1
        (by simpa using hn)
      refine ⟨h :: a, x, b, o, rfl, h3, e, ?_, h4⟩
      simpa [headerEntries] using he

end Ccpp.CF
