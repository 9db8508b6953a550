import Verif.Props.FortranFileSpec
/-!
# C89: the tables of the specification part
-/
namespace Ccpp.FFile

open Ccpp.FDecl (Str VarRec Blank)
open Ccpp.FSub (Begins isContains)

/-- What a part does to the state. -/
def partSt (mod : Str) (st : PSt) : Part → PSt
  | .idle _ => st
  | .decl _ vars => if st.active.map lower = some (lower mod) then { st with vars := st.vars ++ vars } else st
  | .type _ name members _ _ =>
    if st.active.map lower = some (lower name) then
      { st with tables := st.tables ++ [⟨.ddt, name, mod, members.flatMap (·.2)⟩], active := none } else st

theorem partSt_vars (mod : Str) (st : PSt) (p : Part) : ∃ vs, (partSt mod st p).vars = st.vars ++ vs := by
  cases p with
  | idle => exact ⟨[], by simp [partSt]⟩
  | decl s vars =>
    simp only [partSt]
    split
    · exact ⟨vars, rfl⟩
    · exact ⟨[], by simp⟩
  | type =>
    simp only [partSt]
    split
    · exact ⟨[], by simp⟩
    · exact ⟨[], by simp⟩

theorem foldl_vars (mod : Str) : ∀ (ps : List Part) (st : PSt), ∃ vs, (ps.foldl (partSt mod) st).vars = st.vars ++ vs
  | [], st => ⟨[], by simp⟩
  | p :: ps, st => by
    obtain ⟨a, ha⟩ := partSt_vars mod st p
    obtain ⟨b, hb⟩ := foldl_vars mod ps (partSt mod st p)
    exact ⟨a ++ b, by rw [List.foldl_cons, hb, ha, List.append_assoc]⟩

/-- A statement without effect. -/
theorem preamble_skip (logger : Bool) (mod : Str) {s : Str} (h : Neutral s) (st : PSt)
    (hd : st.active.map lower = some (lower mod) → declare logger st.vars s = some st.vars) :
    Reaches (preamble logger "module".toList mod) [s] st st := by
  refine Reaches.one fun n cur rest rest' hx => ?_
  rw [preamble, hx]
  simp only [h.ty, h.tn, h.ue, h.ct]
  simp only [Option.isSome_none, Bool.or_self, Bool.false_eq_true, if_false]
  cases ha : st.active with
  | none => rfl
  | some t =>
    simp only
    rw [if_neg h.hd]
    by_cases he : lower t = lower mod
    · rw [if_pos he, hd (by rw [ha]; simp [he])]
      simp only [← ha]
    · rw [if_neg he]

theorem preamble_decl (logger : Bool) (mod : Str) {s : Str} {vs : List VarRec} (h : DeclaresVars s vs) (st : PSt)
    (hd : DistinctNames (partSt mod st (.decl s vs)).vars) :
    Reaches (preamble logger "module".toList mod) [s] st (partSt mod st (.decl s vs)) := by
  simp only [partSt] at hd ⊢
  by_cases he : st.active.map lower = some (lower mod)
  · rw [if_pos he] at hd ⊢
    refine Reaches.one fun n cur rest rest' hx => ?_
    have hn := h.neutral
    rw [preamble, hx]
    simp only [hn.ty, hn.tn, hn.ue, hn.ct]
    simp only [Option.isSome_none, Bool.or_self, Bool.false_eq_true, if_false]
    cases ha : st.active with
    | none => rw [ha] at he; cases he
    | some t =>
      simp only
      rw [ha] at he
      rw [if_neg hn.hd, if_pos (by simpa using he), h.facts.2, addVars_some _ _ hd]
  · rw [if_neg he] at hd ⊢
    exact preamble_skip logger mod h.neutral st fun hh => absurd hh he

theorem preamble_type (logger : Bool) {mod s name e : Str} {members : List (Str × List VarRec)} {procedures : List Str}
    (hok : (Part.type s name members procedures e).Ok mod) (st : PSt) :
    Reaches (preamble logger "module".toList mod) (Part.type s name members procedures e).stmts st
      (partSt mod st (.type s name members procedures e)) := by
  rintro k n ⟨cur, rest⟩ ss hs hn
  obtain ⟨rest', h1, h2⟩ := next_holds (ss := members.map (·.1) ++ procedures ++ [e] ++ ss) hs
  obtain ⟨f1, f2, f3, f4, f5, f6⟩ := hok.1.facts
  obtain ⟨ts, ls', h3, h4, h5⟩ := typeLines_block logger hok h2
  cases n with
  | zero => simp [Part.stmts] at hn
  | succ n =>
    refine ⟨n, ([], ls'), by simp [Part.stmts] at hn; omega, h5, ?_⟩
    rw [preamble, h1]
    simp only [f1, f2, f3, f4]
    simp only [Option.isSome_none, Bool.or_self, Bool.false_eq_true, if_false, h3, h4]
    simp only [partSt]
    split <;> rfl

theorem preamble_part (logger : Bool) {mod : Str} {p : Part} (hok : p.Ok mod) (st : PSt)
    (hd : DistinctNames (partSt mod st p).vars) : Reaches (preamble logger "module".toList mod) p.stmts st (partSt mod st p) := by
  cases p with
  | idle s => exact preamble_skip logger mod hok.neutral st fun _ => hok.declare logger _
  | decl s vs => exact preamble_decl logger mod hok st hd
  | type s name members procedures e => exact preamble_type logger hok st

theorem preamble_parts (logger : Bool) {mod : Str} : ∀ (ps : List Part) (st : PSt), (∀ p ∈ ps, p.Ok mod) →
    DistinctNames (ps.foldl (partSt mod) st).vars →
    Reaches (preamble logger "module".toList mod) (ps.flatMap Part.stmts) st (ps.foldl (partSt mod) st)
  | [], st, _, _ => Reaches.refl _ _
  | p :: ps, st, h, hd => by
    obtain ⟨vs, hv⟩ := foldl_vars mod ps (partSt mod st p)
    rw [List.foldl_cons] at hd ⊢
    rw [List.flatMap_cons]
    exact (preamble_part logger (h p (by simp)) st (distinct_left (hv ▸ hd))).trans
      (preamble_parts logger ps _ (fun q hq => h q (by simp [hq])) hd)

/-- What a section does. -/
def sectionSt (mod : Str) (st : PSt) (x : Section) : PSt := x.parts.foldl (partSt mod) { st with active := some x.name }

theorem preamble_section (logger : Bool) {mod : Str} {x : Section} (h : x.Ok mod) (st : PSt)
    (hd : DistinctNames (sectionSt mod st x).vars) :
    Reaches (preamble logger "module".toList mod) x.stmts st (sectionSt mod st x) := by
  refine Reaches.cons (b := { st with active := some x.name }) ?_ (preamble_parts logger x.parts _ h.2 hd)
  obtain ⟨f1, f2, f3, f4⟩ := h.1.facts
  refine Reaches.one fun n cur rest rest' hx => ?_
  rw [preamble, hx]
  simp only [f1, f2]

/-- The sum of the parts. -/
theorem parts_sum {mod : Str} : ∀ (ps : List Part) (st : PSt), (∀ p ∈ ps, p.Ok mod) →
    (ps.foldl (partSt mod) st).tables = st.tables ++ (match st.active with
      | none => []
      | some a => (ps.findSome? fun
        | .type _ n members _ _ => if lower n = lower a then some (⟨.ddt, n, mod, members.flatMap (·.2)⟩ : Tbl) else none
        | _ => none).toList) ∧
    (ps.foldl (partSt mod) st).vars = st.vars ++ (if st.active.map lower = some (lower mod) then
      ps.flatMap fun
        | .decl _ vars => vars
        | _ => []
      else [])
  | [], st, _ => by
    constructor
    · cases st.active <;> simp
    · simp
  | p :: ps, st, h => by
    have ih := parts_sum ps (partSt mod st p) fun q hq => h q (by simp [hq])
    have hp := h p (by simp)
    rw [List.foldl_cons, ih.1, ih.2]
    cases p with
    | idle s => exact ⟨by simp [partSt], by simp [partSt]⟩
    | decl s vars =>
      simp only [partSt]
      by_cases he : st.active.map lower = some (lower mod)
      · simp only [if_pos he]
        exact ⟨by simp, by simp⟩
      · simp only [if_neg he]
        exact ⟨by simp, by simp⟩
    | type s name members procedures e =>
      simp only [partSt]
      obtain ⟨_, hne, _⟩ := hp
      by_cases he : st.active.map lower = some (lower name)
      · simp only [if_pos he]
        cases ha : st.active with
        | none => rw [ha] at he; cases he
        | some a =>
          rw [ha] at he
          simp only [Option.map_some, Option.some.injEq] at he
          refine ⟨by simp [he], ?_⟩
          simp [he, hne]
      · simp only [if_neg he]
        refine ⟨?_, by simp⟩
        cases ha : st.active with
        | none => rfl
        | some a =>
          rw [ha] at he
          simp only [Option.map_some, Option.some.injEq] at he
          simp [Ne.symm he]

theorem section_sum {mod : Str} {x : Section} (h : x.Ok mod) (st : PSt) :
    (sectionSt mod st x).tables = st.tables ++ (x.ddt mod).toList ∧
    (sectionSt mod st x).vars = st.vars ++ x.vars mod := by
  have := parts_sum x.parts { st with active := some x.name } h.2
  unfold sectionSt
  rw [this.1, this.2]
  refine ⟨rfl, ?_⟩
  unfold Section.vars
  simp only [Option.map_some, Option.some.injEq]
  split <;> rfl

theorem sections_sum {mod : Str} : ∀ (xs : List Section) (st : PSt), (∀ x ∈ xs, x.Ok mod) →
    (xs.foldl (sectionSt mod) st).tables = st.tables ++ xs.filterMap (Section.ddt mod) ∧
    (xs.foldl (sectionSt mod) st).vars = st.vars ++ xs.flatMap (Section.vars mod)
  | [], st, _ => by simp
  | x :: xs, st, h => by
    obtain ⟨h1, h2⟩ := section_sum (h x (by simp)) st
    obtain ⟨h3, h4⟩ := sections_sum xs (sectionSt mod st x) fun q hq => h q (by simp [hq])
    rw [List.foldl_cons, h3, h4, h1, h2]
    refine ⟨?_, by simp⟩
    rw [List.filterMap_cons]
    cases Section.ddt mod x <;> simp

theorem preamble_sections (logger : Bool) {mod : Str} : ∀ (xs : List Section) (st : PSt), (∀ x ∈ xs, x.Ok mod) →
    DistinctNames (st.vars ++ xs.flatMap (Section.vars mod)) →
    Reaches (preamble logger "module".toList mod) (xs.flatMap Section.stmts) st (xs.foldl (sectionSt mod) st)
  | [], st, _, _ => Reaches.refl _ _
  | x :: xs, st, h, hd => by
    have hx := (section_sum (h x (by simp)) st).2
    rw [List.flatMap_cons, ← List.append_assoc] at hd
    rw [List.foldl_cons, List.flatMap_cons]
    refine (preamble_section logger (h x (by simp)) st (by rw [hx]; exact distinct_left hd)).trans
      (preamble_sections logger xs _ (fun q hq => h q (by simp [hq])) ?_)
    rw [hx]
    exact hd

/-- The preamble, up to the statement that ends the specification part. -/
theorem preamble_all (logger : Bool) {mod e : Str} {xs : List Section} (h : ∀ x ∈ xs, x.Ok mod)
    (hd : DistinctNames (xs.flatMap (Section.vars mod)))
    (he : tableName e = none ∧ typeStart e = some none ∧ ((unitEnd "module".toList e).isSome || isContains e true) = true)
    {n : Nat} {src : Src} {ss : List Str} (hs : Holds src (xs.flatMap Section.stmts ++ e :: ss))
    (hn : (xs.flatMap Section.stmts ++ e :: ss).length ≤ n) :
    ∃ rest', preamble logger "module".toList mod n {} src =
      .ok (xs.filterMap (Section.ddt mod) ++ [⟨.module, mod, mod, xs.flatMap (Section.vars mod)⟩], some ([e], rest')) ∧
      Holds ([], rest') ss := by
  obtain ⟨n', src', h1, h2, h3⟩ := preamble_sections logger xs {} h (by simpa using hd) 0 n src (e :: ss) hs hn
  rw [h3]
  obtain ⟨cur, rest⟩ := src'
  obtain ⟨rest', h4, h5⟩ := next_holds h2
  obtain ⟨s1, s2⟩ := sections_sum xs {} h
  refine ⟨rest', ?_, h5⟩
  cases n' with
  | zero => simp at h1
  | succ n' =>
    rw [preamble, h4]
    simp only [he.1, he.2.1]
    rw [if_pos he.2.2, s1, s2]
    simp

/-! ## The specification part -/

theorem spec_part (logger : Bool) {mod : Str} {p : Part} (hok : p.Ok mod) (tables : List Tbl) :
    Reaches (specification logger "module".toList mod true) p.stmts tables tables := by
  have neutral : ∀ {s}, Neutral s → Reaches (specification logger "module".toList mod true) [s] tables tables := by
    intro s h
    refine Reaches.one fun n cur rest rest' hx => ?_
    rw [specification, hx]
    simp only [h.ty, h.tn, h.ue, h.ct]
    simp
  cases p with
  | idle s => exact neutral hok.neutral
  | decl s vs => exact neutral (DeclaresVars.neutral hok)
  | type s name members procedures e =>
    rintro k n ⟨cur, rest⟩ ss hs hn
    obtain ⟨rest', h1, h2⟩ := next_holds (ss := members.map (·.1) ++ procedures ++ [e] ++ ss) hs
    obtain ⟨f1, f2, f3, f4, f5, f6⟩ := hok.1.facts
    obtain ⟨ts, ls', h3, h4, h5⟩ := typeLines_block logger hok h2
    cases n with
    | zero => simp [Part.stmts] at hn
    | succ n =>
      refine ⟨n, ([], ls'), by simp [Part.stmts] at hn; omega, h5, ?_⟩
      rw [specification, h1]
      simp only [f1, f2, f3, f4]
      simp [h3]

theorem spec_parts (logger : Bool) {mod : Str} (tables : List Tbl) : ∀ (ps : List Part), (∀ p ∈ ps, p.Ok mod) →
    Reaches (specification logger "module".toList mod true) (ps.flatMap Part.stmts) tables tables
  | [], _ => Reaches.refl _ _
  | p :: ps, h => by
    rw [List.flatMap_cons]
    exact (spec_part logger (h p (by simp)) tables).trans (spec_parts logger tables ps fun q hq => h q (by simp [hq]))

/-- The specification part of a module, up to the statement that ends it. -/
theorem spec_all (logger : Bool) {mod e : Str} {ps : List Part} {xs : List Section} (hp : ∀ p ∈ ps, p.Ok mod)
    (h : ∀ x ∈ xs, x.Ok mod) (hd : DistinctNames (xs.flatMap (Section.vars mod)))
    (he : tableName e = none ∧ typeStart e = some none ∧ ((unitEnd "module".toList e).isSome || isContains e true) = true)
    {n : Nat} {src : Src} {ss : List Str} (hs : Holds src (ps.flatMap Part.stmts ++ xs.flatMap Section.stmts ++ e :: ss))
    (hn : (ps.flatMap Part.stmts ++ xs.flatMap Section.stmts ++ e :: ss).length + 1 ≤ n) :
    ∃ rest', specification logger "module".toList mod true n [] src = .ok (specTables mod xs, some ([], rest')) ∧
      Holds ([], rest') ss := by
  rw [List.append_assoc] at hs hn
  obtain ⟨n', src', h1, h2, h3⟩ := spec_parts logger (mod := mod) [] ps hp 1 n src _ hs hn
  rw [h3]
  obtain ⟨cur, rest⟩ := src'
  have stop : ∀ {n' : Nat} {cur : List Str} {rest : List (List Str)} (tables : List Tbl), 1 ≤ n' → Holds (cur, rest) (e :: ss) →
      ∃ rest', specification logger "module".toList mod true n' tables (cur, rest) = .ok (tables, some ([], rest')) ∧
        Holds ([], rest') ss := by
    intro n' cur rest tables hn' hh
    obtain ⟨rest', h4, h5⟩ := next_holds hh
    refine ⟨rest', ?_, h5⟩
    cases n' with
    | zero => omega
    | succ n' =>
      rw [specification, h4]
      simp only [he.1, he.2.1]
      by_cases hu : (unitEnd "module".toList e).isSome = true
      · rw [if_pos hu]
      · have : isContains e true = true := by
          have := he.2.2
          rw [Bool.or_eq_true] at this
          exact this.resolve_left hu
        rw [if_neg hu]
        simp [this]
  cases xs with
  | nil =>
    have := stop (n' := n') [] (by simp at h1; omega) (by simpa using h2)
    simpa [specTables] using this
  | cons x xs =>
    have hm := (h x (by simp)).1.facts
    obtain ⟨rest1, h4, h5⟩ := next_holds (s := x.marker) (ss := x.parts.flatMap Part.stmts ++ xs.flatMap Section.stmts ++ e :: ss)
      (by simpa [Section.stmts] using h2)
    have hsrc : Holds ([x.marker], rest1) ((x :: xs).flatMap Section.stmts ++ e :: ss) := by
      refine ⟨?_, ?_⟩
      · intro l hl
        rcases List.mem_cons.1 hl with rfl | hl
        · simp
        · exact h5.1 l (by simp [hl])
      · have := h5.2
        simp only [List.flatten_cons, List.nil_append] at this
        simp [this, Section.stmts]
    cases n' with
    | zero => simp at h1
    | succ n' =>
      obtain ⟨rest2, h6, h7⟩ := preamble_all logger h hd he (n := n') hsrc (by omega)
      have h8 : Holds ([e], rest2) (e :: ss) := by
        refine ⟨?_, ?_⟩
        · intro l hl
          rcases List.mem_cons.1 hl with rfl | hl
          · simp
          · exact h7.1 l (by simp [hl])
        · have := h7.2
          simp only [List.flatten_cons, List.nil_append] at this
          simp [this]
      obtain ⟨rest3, h9, h10⟩ := stop (n' := n') (specTables mod (x :: xs)) (by simp at h1; omega) h8
      refine ⟨rest3, ?_, h10⟩
      rw [specification, h4]
      simp only [hm.1, hm.2.1, hm.2.2.1]
      simp only [Option.isSome_none, Option.isSome_some, Bool.false_eq_true, if_false, if_true, h6]
      rw [← h9]
      rfl

end Ccpp.FFile
