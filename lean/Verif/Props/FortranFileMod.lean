import Verif.Props.FortranFilePre
/-!
# C89: the routines of a module
-/
namespace Ccpp.FFile

open Ccpp.FDecl (Str VarRec Blank)
open Ccpp.FSub (Begins isContains Header Internal Inside Ends DeclaredOnce Body Quiet subStmt endSub parseScheme Inner)

/-! ## Statements -/

theorem noSub {s : Str} (h1 : ¬ Begins ["subroutine".toList] s)
    (h2 : ∀ p ∈ ["recursive".toList, "pure".toList, "elemental".toList], ¬ Begins [p, "subroutine".toList] s) :
    subStmt s = none := by
  refine Classical.byContradiction fun hn => ?_
  rcases FSub.subStmt_some hn with hb | ⟨p, hp, hb⟩
  · exact h1 hb
  · exact h2 p hp hb

theorem Between.facts {s : Str} (h : Between s) : tableName s = none ∧ unitEnd "module".toList s = none ∧
    (∀ i, isContains s i = false) ∧ subStmt s = none ∧ endSub s = false :=
  ⟨tableName_none h.marker, unitEnd_none h.endmod, isContains_none h.contains, noSub h.sub h.presub,
    Bool.eq_false_iff.2 fun hh => h.endsub ((FSub.endSub_iff s).1 hh)⟩

theorem Header.facts {s name : Str} {args : List Str} (h : Header s name args) : tableName s = none ∧
    unitEnd "module".toList s = none ∧ (∀ i, isContains s i = false) ∧ ∃ a, subStmt s = some (name, a) := by
  obtain ⟨k, hk, hb⟩ := FSub.Header.begins h
  obtain ⟨a, h1, _⟩ := FSub.header_sub h
  have kk : k.head?.any (fun c => !isWs c && c != '!') = true ∧ k.head?.any (fun c => !isWs c) = true ∧
      3 ≤ k.length ∧ k.take 3 ≠ "contains".toList.take 3 ∧ k.take 3 ≠ "end".toList.take 3 := by
    clear hb h1; revert k; decide
  exact ⟨tableName_word hb kk.1, unitEnd_none fun he => clash hb he kk.2.1 (by decide) 3 ⟨kk.2.2.1, by decide, kk.2.2.2.2⟩,
    isContains_none fun he => clash hb he kk.2.1 (by decide) 3 ⟨kk.2.2.1, by decide, kk.2.2.2.1⟩, a, h1⟩

theorem Ends.facts {s : Str} (h : Ends s) : tableName s = none ∧ unitEnd "module".toList s = none ∧
    (∀ i, isContains s i = false) ∧ subStmt s = none ∧ endSub s = true := by
  refine ⟨tableName_word h (by decide), unitEnd_none fun he => ?_,
    isContains_none fun he => clash h he (by decide) (by decide) 3 (by decide), noSub ?_ ?_, (FSub.endSub_iff s).2 h⟩
  · obtain ⟨b, v, r, rfl, hb, hv, hs⟩ := h
    have := begins_cons hb hv (by decide) (by decide) he
    exact clash hs this (by decide) (by decide) 1 (by decide)
  · exact fun he => clash h he (by decide) (by decide) 3 (by decide)
  · intro p hp he
    have kk : p.head?.any (fun c => !isWs c) = true ∧ 3 ≤ p.length ∧ "end".toList.take 3 ≠ p.take 3 := by
      clear he; revert p; decide
    exact clash h he (by decide) kk.1 3 ⟨by decide, kk.2.1, kk.2.2⟩

theorem Inside.facts {s : Str} (h : Inside s) : tableName s = none ∧ unitEnd "module".toList s = none ∧ endSub s = false :=
  ⟨tableName_none h.marker, unitEnd_none h.endmod, Bool.eq_false_iff.2 fun hh => h.endsub ((FSub.endSub_iff s).1 hh)⟩

/-! ## Subroutines without table -/

theorem mod_between (logger : Bool) {mod : Str} {regions : Regions} {s : Str} (h : Between s) (st : MSt) (ha : st.active = none) :
    Reaches (moduleLoop logger mod regions) [s] st st := by
  obtain ⟨h1, h2, h3, h4, h5⟩ := h.facts
  obtain ⟨tables, active, routines, seen, insub⟩ := st
  simp only at ha
  subst ha
  refine Reaches.one fun n cur rest rest' hx => ?_
  rw [moduleLoop, hx]
  simp only [h1, h2, h3, h4, h5, Bool.or_false, Bool.false_eq_true, if_false]

theorem mod_inside (logger : Bool) {mod : Str} {regions : Regions} {s : Str} (h : Inside s) (st : MSt) (ha : st.active = none)
    (hs : st.seen = true ∨ (st.insub = true ∧ Begins ["contains".toList] s)) :
    Reaches (moduleLoop logger mod regions) [s] st { st with seen := true } := by
  obtain ⟨h1, h2, h3⟩ := Inside.facts h
  have hseen : (st.seen || isContains s st.insub) = true := by
    rcases hs with hs | ⟨hs, hc⟩
    · simp [hs]
    · rw [hs, FSub.contains_eq hc]; simp
  refine Reaches.one fun n cur rest rest' hx => ?_
  rw [moduleLoop, hx]
  simp only [h1, h2, h3, ha, hseen, Bool.false_eq_true, if_false]
  cases subStmt s <;> rfl

theorem mod_end (logger : Bool) {mod : Str} {regions : Regions} {s : Str} (h : Ends s) (st : MSt) (ha : st.active = none) :
    Reaches (moduleLoop logger mod regions) [s] st
      (if st.seen then { st with seen := false } else { st with insub := false }) := by
  obtain ⟨h1, h2, h3, h4, h5⟩ := Ends.facts h
  refine Reaches.one fun n cur rest rest' hx => ?_
  rw [moduleLoop, hx]
  simp only [h1, h2, h3, h4, h5, ha, Bool.or_false, if_true]
  split <;> rfl

/-- A subroutine without table. -/
theorem mod_sub (logger : Bool) {mod : Str} {regions : Regions} {header name : Str} {body internal ends : List Str}
    (hok : (Routine.sub header name body internal ends).Ok) (tables : List Tbl) (routines : List Str) (i : Bool) :
    ∃ j, Reaches (moduleLoop logger mod regions) (Routine.sub header name body internal ends).stmts
      ⟨tables, none, routines, false, i⟩ ⟨tables, none, routines ++ [name], false, j⟩ := by
  obtain ⟨⟨args, hh⟩, hb, hi, e, he, hends⟩ := hok
  obtain ⟨h1, h2, h3, a, h4⟩ := Header.facts hh
  have r1 : Reaches (moduleLoop logger mod regions) [header] ⟨tables, none, routines, false, i⟩
      ⟨tables, none, routines ++ [name], false, true⟩ := by
    refine Reaches.one fun n cur rest rest' hx => ?_
    rw [moduleLoop, hx]
    simp only [h1, h2, h3, h4, Bool.or_false]
  have r2 : Reaches (moduleLoop logger mod regions) body ⟨tables, none, routines ++ [name], false, true⟩
      ⟨tables, none, routines ++ [name], false, true⟩ := Reaches.all fun s hs => mod_between logger (hb s hs) _ rfl
  have r3 : Reaches (moduleLoop logger mod regions) internal ⟨tables, none, routines ++ [name], false, true⟩
      ⟨tables, none, routines ++ [name], !internal.isEmpty, true⟩ := by
    rcases hi with rfl | ⟨c, ss, rfl, hc, hin⟩
    · exact Reaches.refl _ _
    · refine Reaches.cons (mod_inside logger (hin c (by simp)) ⟨tables, none, routines ++ [name], false, true⟩ rfl
        (.inr ⟨rfl, hc⟩)) (Reaches.all fun s hs => ?_)
      exact mod_inside logger (hin s (by simp [hs])) ⟨tables, none, routines ++ [name], true, true⟩ rfl (.inl rfl)
  have r4 : ∃ j, Reaches (moduleLoop logger mod regions) ends ⟨tables, none, routines ++ [name], !internal.isEmpty, true⟩
      ⟨tables, none, routines ++ [name], false, j⟩ := by
    have re := mod_end logger (mod := mod) (regions := regions) he
      ⟨tables, none, routines ++ [name], !internal.isEmpty, true⟩ rfl
    rcases hends with rfl | ⟨hne, between, e', hbt, he', rfl⟩
    · cases hx : internal.isEmpty with
      | true => rw [hx] at re; exact ⟨false, re⟩
      | false => rw [hx] at re; exact ⟨true, re⟩
    · have hx : internal.isEmpty = false := by
        cases internal with
        | nil => exact absurd rfl hne
        | cons => rfl
      rw [hx] at re ⊢
      refine ⟨false, Reaches.cons re (Reaches.trans (b := ⟨tables, none, routines ++ [name], false, true⟩)
        (Reaches.all fun s hs => mod_between logger (hbt s hs) _ rfl) ?_)⟩
      exact mod_end logger he' ⟨tables, none, routines ++ [name], false, true⟩ rfl
  obtain ⟨j, r4⟩ := r4
  exact ⟨j, r1.cons ((r2.trans r3).trans r4)⟩

/-! ## Schemes -/

theorem split_lines {e : Str} {B : List Str} : ∀ {ls : List (List Str)} {A : List Str}, OnePerLine ls (A ++ e :: B) →
    ∃ L1 L2, ls = L1 ++ [e] :: L2 ∧ L1.flatten = A ∧ OnePerLine L2 B
  | [], A, h => by have := h.2; simp at this
  | [] :: ls, A, h => by
    obtain ⟨L1, L2, h1, h2, h3⟩ := split_lines (ls := ls) (A := A) ⟨fun x hx => h.1 x (by simp [hx]), by simpa using h.2⟩
    exact ⟨[] :: L1, L2, by rw [h1]; rfl, by simpa using h2, h3⟩
  | (x :: l) :: ls, A, h => by
    obtain ⟨h1, h2⟩ := h
    have := h1 (x :: l) (by simp)
    cases l with
    | cons => simp at this
    | nil =>
      cases A with
      | nil =>
        simp only [List.flatten_cons, List.nil_append, List.cons_append, List.cons.injEq] at h2
        exact ⟨[], ls, by rw [h2.1]; rfl, rfl, fun y hy => h1 y (by simp [hy]), h2.2⟩
      | cons a A =>
        simp only [List.flatten_cons, List.nil_append, List.cons_append, List.cons.injEq] at h2
        obtain ⟨L1, L2, h3, h4, h5⟩ := split_lines (ls := ls) (A := A) ⟨fun y hy => h1 y (by simp [hy]), h2.2⟩
        exact ⟨[x] :: L1, L2, by rw [h3]; rfl, by simp [h4, h2.1], h5⟩

theorem lines_rest (table : Str) (logger : Bool) : ∀ (ls : List (List Str)) (st : FSub.St) {st' : FSub.St} {left : List Str}
    {rest : List (List Str)}, FSub.lines table logger st ls = some (st', left, rest) → ls = [] ∨ rest.length < ls.length
  | [], st, st', left, rest, h => .inl rfl
  | l :: ls, st, st', left, rest, h => by
    right
    rw [FSub.lines] at h
    split at h
    · cases h
    · split at h
      · rename_i st1 _ _ _
        have hlen : rest.length ≤ ls.length := by
          rcases lines_rest table logger ls st1 h with rfl | hh
          · rw [FSub.lines] at h
            simp only [Option.some.injEq, Prod.mk.injEq] at h
            rw [← h.2.2]; simp
          · omega
        simp; omega
      · simp only [Option.some.injEq, Prod.mk.injEq] at h
        rw [← h.2.2]; simp

/-- The scheme that ends at a line of its own does not leave the module. -/
theorem noLeave (table : Str) (logger : Bool) {e : Str} (he : Ends e) {L2 : List (List Str)} : ∀ (L1 : List (List Str)) (st : FSub.St)
    {st' : FSub.St} {left : List Str}, (∀ s ∈ L1.flatten, Inner table logger s) → st.insub = true →
    FSub.lines table logger st (L1 ++ [e] :: L2) = some (st', left, L2) →
    linesLeave table logger st (L1 ++ [e] :: L2) = false
  | [], st, st', left, _, hst, h => by
    rw [List.nil_append, FSub.lines] at h
    rw [List.nil_append, linesLeave]
    obtain ⟨st1, hs, _⟩ := FSub.Ends.step he table logger st hst
    have hl : FSub.line table logger st [e] = some (st1, []) := by
      rw [FSub.line, hs]
      rfl
    rw [hl] at h ⊢
    simp only at h ⊢
    split at h
    · rename_i hi
      rw [if_pos hi]
      rcases lines_rest table logger L2 st1 h with rfl | hh
      · rfl
      · omega
    · rename_i hi
      rw [if_neg hi, lineLeaves, hs]
      rfl
  | l :: L1, st, st', left, hin, hst, h => by
    rw [List.cons_append, FSub.lines] at h
    rw [List.cons_append, linesLeave]
    obtain ⟨h1, h2⟩ := FSub.line_fold table logger l (fun s hs => hin s (by simp [hs])) st hst []
    rw [List.append_nil] at h1
    cases hf : FSub.fold table logger st l with
    | none =>
      rw [h1, hf] at h
      cases h
    | some st1 =>
      have hi := h2 _ hf
      rw [h1, hf] at h
      rw [h1, hf]
      simp only [Option.bind_some, FSub.line, hi, if_true] at h ⊢
      exact noLeave table logger he L1 st1 (fun s hs => hin s (by simp [hs])) hi h

theorem find_of {vars : List VarRec} {v : VarRec} {a : Str} (hn : (vars.map fun v => lower v.name).Nodup) (hv : v ∈ vars)
    (he : lower v.name = lower a) : (vars.find? fun v => decide (lower v.name = lower a)) = some v := by
  induction vars with
  | nil => cases hv
  | cons x vars ih =>
    rw [List.map_cons, List.nodup_cons] at hn
    by_cases hx : lower x.name = lower a
    · rw [List.find?_cons_of_pos (by simpa using hx)]
      rcases List.mem_cons.1 hv with rfl | hv
      · rfl
      · exact absurd (List.mem_map.2 ⟨v, hv, by rw [he, hx]⟩) hn.1
    · rw [List.find?_cons_of_neg (by simpa using hx)]
      rcases List.mem_cons.1 hv with rfl | hv
      · exact absurd he hx
      · exact ih hn.2 hv

theorem scheme_vars {vars : List VarRec} (hn : (vars.map fun v => lower v.name).Nodup) : ∀ (args : List Str) (vs : List (Str × VarRec)),
    vs.map (·.1) = args.map lower → (∀ p ∈ vs, p.2 ∈ vars ∧ lower p.2.name = p.1) →
    vs.map (·.2) = args.filterMap fun a => vars.find? fun v => decide (lower v.name = lower a)
  | [], [], _, _ => rfl
  | [], _ :: _, h, _ => by simp at h
  | _ :: _, [], h, _ => by simp at h
  | a :: args, p :: vs, h, hp => by
    simp only [List.map_cons, List.cons.injEq] at h
    have h1 := hp p (by simp)
    rw [List.map_cons, List.filterMap_cons, find_of hn h1.1 (h1.2.trans h.1)]
    simp only
    rw [scheme_vars hn args vs h.2 fun q hq => hp q (by simp [hq])]

/-- A scheme. -/
theorem mod_scheme (logger : Bool) {mod : Str} {regions : Regions} {marker table comment : Str} {before : List Str}
    {header name : Str} {args : List Str} {body : List (Str × List VarRec)} {internal : List Str} {e : Str}
    (hok : (Routine.scheme marker table comment before header name args body internal e).Ok) (tables : List Tbl)
    (routines : List Str) (i : Bool) :
    Reaches (moduleLoop logger mod regions) (Routine.scheme marker table comment before header name args body internal e).stmts
      ⟨tables, none, routines, false, i⟩
      ⟨tables ++ [⟨.scheme, name, mod, args.filterMap fun a => (body.flatMap (·.2)).find? fun v =>
        decide (lower v.name = lower a)⟩], none, routines, false, i⟩ := by
  obtain ⟨hm, hc, hnm, hbefore, hheader, hbody, hinternal, he, hname, hdecl⟩ := hok
  obtain ⟨m1, m2, m3, m4⟩ := hm.facts
  refine Reaches.cons (b := ⟨tables, some table, routines, false, i⟩) ?_ ?_
  · refine Reaches.one fun n cur rest rest' hx => ?_
    rw [moduleLoop, hx]
    simp only [m1, m4, Bool.or_false]
  · rintro k n ⟨cur, rest⟩ ss hs hn
    obtain ⟨rest1, h1, h2⟩ := next_holds
      (ss := (before ++ header :: (body.map (·.1) ++ internal)) ++ e :: ss) (by simpa using hs)
    have c1 : ∀ i, isContains comment i = false :=
      isContains_none fun hb => clash hb hc (by decide) (by decide) 1 (by decide)
    have c2 : unitEnd "module".toList comment = none :=
      unitEnd_none fun hb => clash hb hc (by decide) (by decide) 1 (by decide)
    obtain ⟨L1, L2, h3, h4, h5⟩ := split_lines h2
    have hin : ∀ s ∈ L1.flatten, Inner table logger s := by
      intro s hs
      rw [h4, List.mem_append, List.mem_cons, List.mem_append] at hs
      rcases hs with hs | rfl | hs | hs
      · exact FSub.body_inner table logger (.quiet (hbefore s hs))
      · exact FSub.header_inner table logger hheader
      · obtain ⟨p, hp, rfl⟩ := List.mem_map.1 hs
        exact FSub.body_inner table logger (hbody p hp)
      · rcases hinternal with rfl | ⟨c, ss, rfl, _, hi⟩
        · cases hs
        · obtain ⟨c2, c3, c4⟩ := FSub.Inside.facts (hi s hs)
          exact FSub.inner_of table logger c2 c3 c4
    have hstop : FSub.Stops e [] [] := .inl ⟨he, rfl, rfl⟩
    obtain ⟨vs, h6, h7, h8⟩ := (FSub.C60_scheme_partial (L1 := L1) (L2 := L2) (l := []) logger (by simpa using h4) hbefore
      hheader hbody hinternal hstop hname).1 hdecl
    rw [List.nil_append, ← h3] at h6
    have h9 : linesLeave table logger {} ([] :: rest1) = false := by
      unfold parseScheme at h6
      split at h6
      · cases h6
      · rename_i st left rest2 hl
        split at h6
        · cases h6
        · simp only [Option.some.injEq, Prod.mk.injEq] at h6
          obtain ⟨_, _, rfl, rfl⟩ := h6
          rw [h3] at hl ⊢
          exact noLeave table logger he L1 {} hin rfl hl
    have h10 := scheme_vars ((hdecl.2.nodup_iff).1 hdecl.1) args vs h7 h8
    cases n with
    | zero => simp at hn
    | succ n =>
      refine ⟨n, ([], L2), by simp at hn; omega, ⟨fun l hl => ?_, by simpa using h5.2⟩, ?_⟩
      · rcases List.mem_cons.1 hl with rfl | hl
        · simp
        · exact h5.1 l hl
      · rw [moduleLoop, h1]
        simp only [tableName_none hnm, c1, c2, h6, h9, h10, Bool.or_false, Bool.false_eq_true, if_false]

/-! ## All routines -/

theorem mod_routine (logger : Bool) {mod : Str} {regions : Regions} {r : Routine} (hok : r.Ok) (tables : List Tbl)
    (routines : List Str) (i : Bool) : ∃ j, Reaches (moduleLoop logger mod regions) r.stmts ⟨tables, none, routines, false, i⟩
      ⟨tables ++ (r.table mod).toList, none, routines ++ r.plain.toList, false, j⟩ := by
  cases r with
  | idle s => exact ⟨i, by simpa [Routine.table, Routine.plain, Routine.stmts] using mod_between logger hok ⟨tables, none, routines, false, i⟩ rfl⟩
  | sub header name body internal ends =>
    obtain ⟨j, h⟩ := mod_sub logger (mod := mod) (regions := regions) hok tables routines i
    exact ⟨j, by simpa [Routine.table, Routine.plain] using h⟩
  | scheme marker table comment before header name args body internal e =>
    refine ⟨i, ?_⟩
    have := mod_scheme logger (mod := mod) (regions := regions) hok tables routines i
    simp only [Routine.table, Routine.plain, Option.toList_some, Option.toList_none, List.append_nil]
    exact this

theorem mod_routines (logger : Bool) {mod : Str} {regions : Regions} : ∀ (rs : List Routine), (∀ r ∈ rs, r.Ok) →
    ∀ (tables : List Tbl) (routines : List Str) (i : Bool),
    ∃ j, Reaches (moduleLoop logger mod regions) (rs.flatMap Routine.stmts) ⟨tables, none, routines, false, i⟩
      ⟨tables ++ rs.filterMap (Routine.table mod), none, routines ++ rs.filterMap Routine.plain, false, j⟩
  | [], _, tables, routines, i => ⟨i, by simpa using Reaches.refl _ _⟩
  | r :: rs, h, tables, routines, i => by
    obtain ⟨j, h1⟩ := mod_routine logger (mod := mod) (regions := regions) (h r (by simp)) tables routines i
    obtain ⟨k, h2⟩ := mod_routines logger (mod := mod) (regions := regions) rs (fun x hx => h x (by simp [hx]))
      (tables ++ (r.table mod).toList) (routines ++ r.plain.toList) j
    refine ⟨k, ?_⟩
    have h3 := h1.trans h2
    rw [List.flatMap_cons]
    have e1 : tables ++ (r.table mod).toList ++ rs.filterMap (Routine.table mod) =
        tables ++ (r :: rs).filterMap (Routine.table mod) := by
      rw [List.filterMap_cons]
      cases r.table mod <;> simp
    have e2 : routines ++ r.plain.toList ++ rs.filterMap Routine.plain = routines ++ (r :: rs).filterMap Routine.plain := by
      rw [List.filterMap_cons]
      cases r.plain <;> simp
    rw [e1, e2] at h3
    exact h3

end Ccpp.FFile
