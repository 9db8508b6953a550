import Verif.Props.FortranMeta
/-!
# C61: metadata and Fortran argument lists agree
-/
namespace Ccpp.FM

/-- **C61** (in part), schemes: the table of a scheme is accepted exactly if its arguments are those of
the Fortran subroutine in the same order, with the same name, type, kind, intent, rank and optional attribute.
Missing: the first argument (here assumed not to be optional in the metadata), dimension names, and
references to array elements. -/
theorem C61_scheme_partial (logger : Bool) (mt ft : Table) (hm : mt.htype = scheme) (hf : ft.htype = scheme)
    (hr : NoRefs mt.vars) (hd : DistinctNames ft.vars) (hk : ∀ f ∈ ft.vars, DimsKnown mt.vars f)
    (h0 : ∀ m, mt.vars.head? = some m → m.optional = false) :
    compare logger mt ft = .ok [] ↔ ArgsAgree mt.vars ft.vars := by
  rw [scheme_accepted_iff logger mt ft hm hf hr]
  constructor
  · rintro ⟨front, extra, hs, hl, he, _, hall⟩
    refine ⟨front, extra, hs, fun e h => (he e h).1, hl, fun i m f him hif => ?_⟩
    obtain ⟨d, hi, _, o1, o2⟩ := hall i m f him hif
    refine ⟨d, hi, ?_⟩
    cases hmo : m.optional with
    | false =>
      cases hfo : f.optional with
      | false => rfl
      | true => rw [o1 hfo] at hmo; cases hmo
    | true =>
      rcases o2 hmo with rfl | h
      · rw [List.head?_eq_getElem?] at h0
        rw [h0 m him] at hmo; cases hmo
      · rw [h]
  · rintro ⟨front, extra, hs, he, hl, hall⟩
    unfold DistinctNames at hd
    rw [hs, List.pairwise_append] at hd
    obtain ⟨d1, _, d3⟩ := hd
    refine ⟨front, extra, hs, hl, fun e h => ⟨he e h, fun m hm hsame => ?_⟩, d1, fun i m f him hif => ?_⟩
    · obtain ⟨i, hi, e1⟩ := List.getElem_of_mem hm
      have hi' : i < front.length := by omega
      have := (hall i m _ (by rw [List.getElem?_eq_getElem hi, e1]) (List.getElem?_eq_getElem hi')).1.name
      exact d3 _ (List.getElem_mem hi') e h (this.symm.trans hsame)
    · obtain ⟨d, hi, ho⟩ := hall i m f him hif
      refine ⟨d, hi, hk f ?_, fun h => by rw [ho]; exact h, fun h => Or.inr (by rw [← ho]; exact h)⟩
      rw [hs]
      exact List.mem_append_left _ (List.mem_of_getElem? hif)

/-- **C61**, soundness for schemes without further hypotheses: accepted arguments agree in number, order,
name, type, kind, intent and rank, and in the optional attribute but for the first argument. -/
theorem C61_scheme_sound (logger : Bool) (mt ft : Table) (hm : mt.htype = scheme) (hf : ft.htype = scheme)
    (hr : NoRefs mt.vars) (h : compare logger mt ft = .ok []) :
    ∃ front extra, ft.vars = front ++ extra ∧ (∀ e ∈ extra, e.optional = true) ∧ mt.vars.length = front.length ∧
      ∀ (i : Nat) m f, mt.vars[i]? = some m → front[i]? = some f →
        Describes m f ∧ SameOpt m.intent f.intent ∧ (i ≠ 0 → m.optional = f.optional) := by
  obtain ⟨front, extra, hs, hl, he, _, hall⟩ := (scheme_accepted_iff logger mt ft hm hf hr).1 h
  refine ⟨front, extra, hs, fun e h => (he e h).1, hl, fun i m f him hif => ?_⟩
  obtain ⟨d, hi, _, o1, o2⟩ := hall i m f him hif
  refine ⟨d, hi, fun hne => ?_⟩
  cases hmo : m.optional with
  | false =>
    cases hfo : f.optional with
    | false => rfl
    | true => rw [o1 hfo] at hmo; cases hmo
  | true =>
    rcases o2 hmo with rfl | h
    · exact absurd rfl hne
    · rw [h]

/-! ## Modules and derived types -/

theorem distinct_le : ∀ {l k : List Str}, l.Nodup → (∀ x ∈ l, x ∈ k) → l.length ≤ k.length := by
  intro l
  induction l with
  | nil => intro k _ _; exact Nat.zero_le _
  | cons a l ih =>
    intro k hn hs
    have ha : a ∈ k := hs a List.mem_cons_self
    rw [List.nodup_cons] at hn
    have := ih (k := k.erase a) hn.2 (fun x hx => by
      rw [List.mem_erase_of_ne]
      · exact hs x (List.mem_cons_of_mem _ hx)
      · rintro rfl; exact hn.1 hx)
    rw [List.length_erase_of_mem ha] at this
    have hpos : 0 < k.length := List.length_pos_of_mem ha
    rw [List.length_cons]
    omega

/-- **C61** (in part), modules and derived types: a table is accepted exactly if every variable of it is
declared in Fortran with the same name, type, kind and rank.  Missing: dimension names, and tables with
references to array elements. -/
theorem C61_module_partial (logger : Bool) (mt ft : Table) (ht : mt.htype = ft.htype)
    (hx : ft.htype = "module".toList ∨ ft.htype = "ddt".toList)
    (hr : NoRefs mt.vars) (hd : DistinctNames mt.vars) (hdf : DistinctNames ft.vars)
    (hk : ∀ f ∈ ft.vars, DimsKnown mt.vars f)
    (ho : ∀ m ∈ mt.vars, m.optional = false) (hof : ∀ f ∈ ft.vars, f.optional = false) :
    compare logger mt ft = .ok [] ↔ ∀ m ∈ mt.vars, ∃ f ∈ ft.vars, Describes m f := by
  have hns : ft.htype ≠ scheme := by rcases hx with h | h <;> rw [h] <;> decide
  have hex : ft.htype ∈ extraTypes := by rcases hx with h | h <;> rw [h] <;> decide
  have hms : (mt.htype == scheme) = false := by
    rw [ht]; exact beq_eq_false_iff_ne.2 hns
  have hneed : neededLen mt ft mt.vars.length = ft.vars.length := by
    unfold neededLen
    split
    · rw [List.filter_eq_nil_iff.2]
      · rfl
      · intro f hf; simp [hof f hf]
    · rfl
  rw [compare_ok ht hr, hneed, checkVars_ok]
  constructor
  · rintro ⟨h1, h2⟩ m hm
    obtain ⟨i, hi, e⟩ := List.getElem_of_mem hm
    have hlt : i < ft.vars.length := by omega
    have := h2 i m (by rw [List.getElem?_eq_getElem hi, e])
    rw [Nat.zero_add] at this
    obtain ⟨k, f, e1, _, _, e4⟩ := (checkVar_ok hlt (hr m hm)).1 this
    exact ⟨f, List.mem_of_getElem? (findVar_some.1 e1).1, (compareVar_ok.1 e4).1⟩
  · intro h
    have hle : mt.vars.length ≤ ft.vars.length := by
      have := distinct_le (l := mt.vars.map fun v => lower v.name) (k := ft.vars.map fun v => lower v.name) (by
        unfold List.Nodup
        rw [List.pairwise_map]
        exact hd) (by
        intro x hx
        obtain ⟨m, hm, rfl⟩ := List.mem_map.1 hx
        obtain ⟨f, hf, d⟩ := h m hm
        exact List.mem_map.2 ⟨f, hf, d.name.symm⟩)
      simpa using this
    refine ⟨?_, fun i m him => ?_⟩
    · by_cases e : mt.vars.length = ft.vars.length
      · exact Or.inl e
      · exact Or.inr ⟨hex, by omega⟩
    · rw [Nat.zero_add]
      have hm := List.mem_of_getElem? him
      have hlt : i < mt.vars.length := (List.getElem?_eq_some_iff.1 him).1
      obtain ⟨f, hf, d⟩ := h m hm
      obtain ⟨k, hk1, e⟩ := List.getElem_of_mem hf
      refine (checkVar_ok (by omega) (hr m hm)).2 ⟨k, f, ?_, fun h => absurd h hns, ?_, ?_⟩
      · refine findVar_some.2 ⟨by rw [List.getElem?_eq_getElem hk1, e], d.name.symm, fun j hj w hw hs => ?_⟩
        obtain ⟨hj', e'⟩ := List.getElem?_eq_some_iff.1 hw
        unfold DistinctNames at hdf
        rw [List.pairwise_iff_getElem] at hdf
        exact hdf j k hj' hk1 hj (by rw [e, e']; exact hs.trans d.name)
      · exact optionalComp_ok.2 ⟨fun h => (by rw [hof f hf] at h; cases h), fun h => (by rw [ho m hm] at h; cases h)⟩
      · refine compareVar_ok.2 ⟨d, fun h => ?_, hk f hf⟩
        rw [hms] at h; cases h

/-! ## All tables of a file -/

theorem compareAll_ok {logger : Bool} : ∀ {ps : List (Table × Table)}, compareAll logger ps = .ok [] ↔
    ∀ p ∈ ps, compare logger p.1 p.2 = .ok [] := by
  intro ps
  induction ps with
  | nil => simp [compareAll]
  | cons p ps ih =>
    obtain ⟨m, f⟩ := p
    rw [List.forall_mem_cons, ← ih, compareAll]
    cases compare logger m f with
    | error e => simp
    | ok a => cases compareAll logger ps <;> simp

theorem perm_eraseP {p : Table → Bool} {l : List Table} {f : Table} (h : l.find? p = some f) :
    l.Perm (f :: l.eraseP p) := by
  induction l with
  | nil => cases h
  | cons x l ih =>
    by_cases hx : p x = true
    · rw [List.find?_cons_of_pos hx] at h
      injection h with h
      rw [List.eraseP_cons_of_pos hx, h]
    · rw [List.find?_cons_of_neg hx] at h
      rw [List.eraseP_cons_of_neg hx]
      exact ((ih h).cons x).trans (List.Perm.swap _ _ _)

theorem pairTables_sound : ∀ {ms fs ps rest}, pairTables ms fs = some (ps, rest) →
    ps.map (·.1) = ms ∧ fs.Perm (ps.map (·.2) ++ rest) ∧ ∀ p ∈ ps, p.1.title = p.2.title := by
  intro ms
  induction ms with
  | nil =>
    intro fs ps rest h
    rw [pairTables] at h
    cases h
    exact ⟨rfl, List.Perm.refl _, by intro p hp; cases hp⟩
  | cons m ms ih =>
    intro fs ps rest h
    rw [pairTables] at h
    cases hf : fs.find? (fun f => f.title == m.title) with
    | none => simp [hf] at h
    | some f =>
      simp only [hf] at h
      cases hp : pairTables ms (fs.eraseP fun f => f.title == m.title) with
      | none => simp [hp] at h
      | some q =>
        obtain ⟨qs, r⟩ := q
        simp only [hp, Option.some.injEq, Prod.mk.injEq] at h
        obtain ⟨rfl, rfl⟩ := h
        obtain ⟨h1, h2, h3⟩ := ih hp
        refine ⟨by rw [List.map_cons, h1], (perm_eraseP hf).trans (by simpa using h2.cons f), ?_⟩
        intro p hpm
        rcases List.mem_cons.1 hpm with rfl | hpm
        · have := List.find?_some hf
          exact (by simpa using this : f.title = m.title).symm
        · exact h3 p hpm

theorem pairTables_complete : ∀ {ms fs : List Table} {ps : List (Table × Table)} {rest : List Table},
    (fs.map (·.title)).Nodup → ps.map (·.1) = ms → fs.Perm (ps.map (·.2) ++ rest) →
    (∀ p ∈ ps, p.1.title = p.2.title) → ∃ rest', pairTables ms fs = some (ps, rest') ∧ rest'.Perm rest := by
  intro ms
  induction ms with
  | nil =>
    intro fs ps rest _ h1 h2 _
    cases ps with
    | nil => exact ⟨fs, rfl, by simpa using h2⟩
    | cons p ps => cases h1
  | cons m ms ih =>
    intro fs ps rest hn h1 h2 h3
    cases ps with
    | nil => cases h1
    | cons p ps =>
      obtain ⟨m', f⟩ := p
      rw [List.map_cons] at h1
      injection h1 with e1 e2
      simp only at e1
      subst e1
      have ht : m'.title = f.title := h3 _ List.mem_cons_self
      have hmem : f ∈ fs := h2.mem_iff.2 (by simp)
      have hf : fs.find? (fun g => g.title == m'.title) = some f := by
        cases hc : fs.find? (fun g => g.title == m'.title) with
        | none =>
          have := List.find?_eq_none.1 hc f hmem
          simp [ht] at this
        | some g =>
          have hg : g.title = m'.title := by simpa using List.find?_some hc
          have hgm := List.mem_of_find?_eq_some hc
          congr 1
          -- titles are distinct
          obtain ⟨i, hi, ei⟩ := List.getElem_of_mem hgm
          obtain ⟨j, hj, ej⟩ := List.getElem_of_mem hmem
          unfold List.Nodup at hn
          rw [List.pairwise_map, List.pairwise_iff_getElem] at hn
          have hij : i = j := by
            rcases Nat.lt_trichotomy i j with h | h | h
            · exact absurd (by rw [ei, ej, hg, ht]) (hn i j hi hj h)
            · exact h
            · exact absurd (by rw [ei, ej, hg, ht]) (hn j i hj hi h)
          subst hij
          rw [← ei, ← ej]
      have hperm : (fs.eraseP fun g => g.title == m'.title).Perm (ps.map (·.2) ++ rest) := by
        have h4 := (perm_eraseP hf).symm.trans h2
        simpa using h4
      have hsub : ((fs.eraseP fun g => g.title == m'.title).map (·.title)).Nodup :=
        hn.sublist (List.eraseP_sublist.map _)
      obtain ⟨rest', e, hp⟩ := ih hsub e2 hperm (fun p hp => h3 p (List.mem_cons_of_mem _ hp))
      refine ⟨rest', ?_, hp⟩
      rw [pairTables, hf]
      simp only [e]

/-- **C61**, all tables of a file: the comparison succeeds exactly if the metadata tables and the Fortran
tables correspond one to one by name, each pair is accepted, and Fortran tables without metadata have no
variables. -/
theorem C61_tables (logger : Bool) (ms fs : List Table) (hn : (fs.map (·.title)).Nodup) :
    check logger ms fs = .ok () ↔
      ∃ (ps : List (Table × Table)) (rest : List Table), ps.map (·.1) = ms ∧ fs.Perm (ps.map (·.2) ++ rest) ∧
        (∀ p ∈ ps, p.1.title = p.2.title ∧ compare logger p.1 p.2 = .ok []) ∧ ∀ f ∈ rest, f.vars = [] := by
  have hrest : ∀ rest : List Table, (rest.any fun f => !f.vars.isEmpty) = false ↔ ∀ f ∈ rest, f.vars = [] := by
    intro rest
    rw [List.any_eq_false]
    exact forall_congr' fun f => by simp
  unfold check
  constructor
  · cases hp : pairTables ms fs with
    | none => simp
    | some q =>
      obtain ⟨ps, rest⟩ := q
      simp only
      intro h
      obtain ⟨h1, h2, h3⟩ := pairTables_sound hp
      split at h
      · cases h
      · next hr =>
        refine ⟨ps, rest, h1, h2, ?_, (hrest rest).1 (by simpa using hr)⟩
        cases hc : compareAll logger ps with
        | error e => simp [hc] at h
        | ok l =>
          cases l with
          | cons a l => simp [hc] at h
          | nil => exact fun p hpm => ⟨h3 p hpm, compareAll_ok.1 hc p hpm⟩
  · rintro ⟨ps, rest, h1, h2, h3, h4⟩
    obtain ⟨rest', e, hp⟩ := pairTables_complete hn h1 h2 (fun p hp => (h3 p hp).1)
    rw [e]
    simp only
    rw [if_neg, compareAll_ok.2 fun p hp => (h3 p hp).2]
    have := (hrest rest').2 fun f hf => h4 f (hp.mem_iff.1 hf)
    rw [this]
    exact Bool.false_ne_true

/-- **C61**, table types: tables of different types are refused, except for a host table and a Fortran module or
scheme. -/
theorem C61_table_types (logger : Bool) (mt ft : Table) (h : compare logger mt ft ≠ .error .error) :
    mt.htype = ft.htype ∨ mt.htype = "host".toList ∧ (ft.htype = "module".toList ∨ ft.htype = scheme) := by
  refine Classical.byContradiction fun hc => h ?_
  rw [not_or] at hc
  unfold compare
  rw [if_pos hc.1, if_pos]
  rw [Classical.not_and_iff_not_or_not] at hc
  refine hc.2.imp id fun h hm => ?_
  simp only [List.mem_cons, List.not_mem_nil, or_false] at hm
  exact h hm

/-! ## Where the property fails -/

/-- Where **C61** fails: host tables are not compared with their Fortran module at all. -/
theorem C61_host_violated (logger : Bool) (mt ft : Table) (hm : mt.htype = "host".toList)
    (hf : ft.htype = "module".toList) : compare logger mt ft = .ok [] := by
  unfold compare
  rw [hm, hf, if_pos (by decide), if_neg (by decide)]

/-- Results can be compared. -/
instance {α : Type} [DecidableEq α] : DecidableEq (Except Exc α)
  | .ok a, .ok b => if h : a = b then .isTrue (by rw [h]) else .isFalse fun e => h (by injection e)
  | .error a, .error b => if h : a = b then .isTrue (by rw [h]) else .isFalse fun e => h (by injection e)
  | .ok _, .error _ => .isFalse fun e => by cases e
  | .error _, .ok _ => .isFalse fun e => by cases e

/-- A scheme table. -/
def schemeTable (vs : List Arg) : Table := ⟨"s_run".toList, scheme, vs⟩

/-- A real argument. -/
def realArg (name std : String) (dims : List String) : Arg :=
  { name := name.toList, std := std.toList, type := "real".toList, kind := some "kp".toList,
    intent := some "in".toList, dims := some (dims.map String.toList) }

/-- An integer argument. -/
def intArg (name std : String) : Arg :=
  { name := name.toList, std := std.toList, type := "integer".toList, intent := some "in".toList }

/-- Where **C61** fails: the first argument may be optional in the metadata and not in Fortran; dimensions
may be exchanged; an element of an array, or any other name with a parenthesis, may follow the arguments
of the Fortran routine. -/
theorem C61_accepts_violated :
    compare true (schemeTable [{ realArg "a" "x" [] with optional := true }]) (schemeTable [realArg "a" "" []]) = .ok [] ∧
    compare true (schemeTable [intArg "nx" "horizontal", intArg "nz" "vertical",
        realArg "a" "x" ["ccpp_constant_one:horizontal", "ccpp_constant_one:vertical"]])
      (schemeTable [intArg "nx" "", intArg "nz" "", realArg "a" "" ["nz", "nx"]]) = .ok [] ∧
    compare true (schemeTable [intArg "n" "count", realArg "b(1)" "y" []]) (schemeTable [intArg "n" ""]) = .ok [] := by
  decide

/-- Where **C61** fails, modules: behind a reference to an array element, a variable is not compared any
more: `b` is integer in the metadata and real in Fortran. -/
theorem C61_after_reference_violated :
    compare true ⟨"m".toList, "module".toList, [realArg "a" "x" ["n"], realArg "a(1)" "x1" [], intArg "b" "y"]⟩
      ⟨"m".toList, "module".toList, [realArg "a" "" ["3"], realArg "b" "" []]⟩ = .ok [] := by
  decide

/-- Where **C61** fails: tables that do not agree are not always reported; an optional argument without Fortran
variable, and a dimension that is not an argument (with a logger), end in another Python exception. -/
theorem C61_report_violated :
    compare true (schemeTable [{ realArg "a" "x" [] with optional := true }]) (schemeTable [realArg "b" "" []]) =
      .error .crash ∧
    compare true (schemeTable [realArg "a" "x" ["ccpp_constant_one:n"]]) (schemeTable [realArg "a" "" ["ncol"]]) =
      .error .crash ∧
    compare false (schemeTable [realArg "a" "x" ["ccpp_constant_one:n"]]) (schemeTable [realArg "a" "" ["ncol"]]) =
      .error .error := by
  decide

/-! ## Instances -/

/-- A table that meets the hypotheses of `C61_scheme_partial` and is accepted: names in other letter case, an
optional argument in the middle and one more at the end of the Fortran list. -/
theorem C61_example : let m := [intArg "ncol" "horizontal_loop_extent",
      { realArg "T" "temperature" ["ccpp_constant_one:horizontal_loop_extent"] with optional := true },
      { realArg "dt" "time_step" [] with intent := some "OUT".toList }]
    let f := [intArg "NCOL" "", { realArg "t" "" ["ncol"] with optional := true },
      { realArg "dt" "" [] with intent := some "out".toList }, { realArg "extra" "" [":"] with optional := true }]
    NoRefs m ∧ DistinctNames f ∧ (∀ x ∈ f, DimsKnown m x) ∧ (∀ x, m.head? = some x → x.optional = false) ∧
      compare true (schemeTable m) (schemeTable f) = .ok [] := by
  intro m f
  refine ⟨by unfold NoRefs; decide, by unfold DistinctNames Same; decide, ?_, ?_, by decide⟩
  · intro x hx ds hds d hd y hy
    have key : ∀ x ∈ f, ∀ d ∈ x.dims.getD [], ∀ y ∈ Chk.splitOn ':' d,
        Chk.isPyInt (strip y) = true ∨ y = [] ∨ ∃ v ∈ m, lower v.name = lower y := by decide
    exact key x hx d (by rw [hds]; exact hd) y hy
  · intro x hx
    simp only [m, List.head?_cons, Option.some.injEq] at hx
    rw [← hx]
    rfl

/-- One argument too few, out of order, another kind, another rank: all refused. -/
example :
    compare true (schemeTable [intArg "n" "x"]) (schemeTable [intArg "n" "", intArg "k" ""]) ≠ .ok [] ∧
    compare true (schemeTable [intArg "n" "x", intArg "k" "y"]) (schemeTable [intArg "k" "", intArg "n" ""]) ≠ .ok [] ∧
    compare true (schemeTable [realArg "a" "x" []]) (schemeTable [{ realArg "a" "" [] with kind := none }]) ≠ .ok [] ∧
    compare true (schemeTable [realArg "a" "x" []]) (schemeTable [realArg "a" "" [":"]]) ≠ .ok [] := by
  decide

/-- A file with two routines, one of them without arguments and metadata. -/
example : check true [schemeTable [intArg "n" "x"]] [⟨"helper".toList, scheme, []⟩, schemeTable [intArg "n" ""]] =
    .ok () := by decide

/-- A module table that meets the hypotheses of `C61_module_partial`. -/
example : let m := [realArg "t" "temperature" ["ccpp_constant_one:n"]]
    let f := [intArg "n" "", realArg "T" "" ["3"]]
    NoRefs m ∧ DistinctNames m ∧ DistinctNames f ∧ (∀ x ∈ m, x.optional = false) ∧ (∀ x ∈ f, x.optional = false) ∧
      compare true ⟨"m".toList, "module".toList, m⟩ ⟨"m".toList, "module".toList, f⟩ = .ok [] := by
  intro m f
  exact ⟨by unfold NoRefs; decide, by unfold DistinctNames Same; decide, by unfold DistinctNames Same; decide,
    by decide, by decide, by decide⟩

end Ccpp.FM
