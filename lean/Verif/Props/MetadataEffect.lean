import Verif.Props.MetadataExamples
import Verif.Spec.MetadataEffect
/-!
# C63: what is written takes effect
-/
namespace Ccpp.MF

open Ccpp.FDecl (Str)

theorem vcons {α : Type} (e : Str × α) (es : List (Str × α)) (k : Str) :
    valuesOf (e :: es) k = if e.1 = k then e.2 :: valuesOf es k else valuesOf es k := by
  unfold valuesOf
  rw [List.filterMap_cons]
  by_cases hk : e.1 = k
  · simp only [if_pos hk]
  · simp only [if_neg hk]

/-- The three cases of `Gives`, with the three keys as parameters. -/
structure GivesC (env : Env) (T D DT : Str) (e : Str × Str) (r : Str × Val) : Prop where
  cases : (e.1 = T ∧ r.1 = DT ∧ r.2 = .text e.2 ∧ env.intrinsic e.2 = false) ∨
    (e.1 = D ∧ r.1 = D ∧ ∃ l, env.value D e.2 = some (.list l) ∧ r.2 = .list (l.map asRange)) ∨
    (r.1 = e.1 ∧ e.1 ≠ D ∧ e.1 ≠ DT ∧ (e.1 = T → env.intrinsic e.2 = true) ∧ env.value e.1 e.2 = some r.2)

theorem Gives.toC {env : Env} (hok : env.Ok) {known : Str → Prop} {e : Str × Str} {r : Str × Val} (h : Gives env known e r) :
    GivesC env "type".toList "dimensions".toList "ddt_type".toList e r := by
  refine ⟨?_⟩
  cases h with
  | derived h1 _ => exact .inl ⟨rfl, rfl, rfl, h1⟩
  | dims h1 => exact .inr (.inl ⟨rfl, rfl, _, h1, rfl⟩)
  | plain h1 h2 h3 =>
    refine .inr (.inr ⟨rfl, h2, fun hd => ?_, h1, h3⟩)
    simp only at hd
    rw [hd, hok.ddt] at h3
    cases h3

theorem All2.single {α β : Type} {R : α → β → Prop} {a : α} {bs : List β} (h : All2 R [a] bs) : ∃ b, bs = [b] ∧ R a b := by
  cases h with
  | cons h1 h2 => cases h2; exact ⟨_, rfl, h1⟩

theorem values_single {α : Type} {es : List (Str × α)} {k : Str} {v : α} (h : valuesOf es k = [v]) :
    ∃ a c, es = a ++ (k, v) :: c ∧ valuesOf a k = [] ∧ valuesOf c k = [] := by
  induction es with
  | nil => cases h
  | cons e es ih =>
    rw [vcons] at h
    split at h
    · rename_i hk
      obtain ⟨x, y⟩ := e
      simp only at hk h
      injection h with h1 h2
      subst hk; subst h1
      exact ⟨[], es, rfl, rfl, h2⟩
    · rename_i hk
      obtain ⟨a, c, rfl, h1, h2⟩ := ih h
      exact ⟨e :: a, c, rfl, by rw [vcons, if_neg hk, h1], h2⟩

theorem all2_split {α β : Type} {R : α → β → Prop} {x : α} {c : List α} : ∀ {a : List α} {bs : List β},
    All2 R (a ++ x :: c) bs → ∃ b1 y b2, bs = b1 ++ y :: b2 ∧ All2 R a b1 ∧ R x y ∧ All2 R c b2
  | [], bs, h => by
    cases h with
    | cons h1 h2 => exact ⟨[], _, _, rfl, .nil, h1, h2⟩
  | z :: a, bs, h => by
    cases h with
    | cons h1 h2 =>
      obtain ⟨b1, y, b2, rfl, i1, i2, i3⟩ := all2_split h2
      exact ⟨_ :: b1, y, b2, rfl, .cons h1 i1, i2, i3⟩

theorem valuesOf_app {α : Type} (a b : List (Str × α)) (k : Str) : valuesOf (a ++ b) k = valuesOf a k ++ valuesOf b k := by
  simp [valuesOf, List.filterMap_append]

theorem values_none {α : Type} {es : List (Str × α)} {k : Str} (h : valuesOf es k = []) : ∀ e ∈ es, e.1 ≠ k := by
  induction es with
  | nil => intro e he; cases he
  | cons e es ih =>
    rw [vcons] at h
    split at h
    · cases h
    · rename_i hk
      intro x hx
      rcases List.mem_cons.1 hx with rfl | hx
      · exact hk
      · exact ih h x hx

theorem none_values {α : Type} {es : List (Str × α)} {k : Str} (h : ∀ e ∈ es, e.1 ≠ k) : valuesOf es k = [] := by
  induction es with
  | nil => rfl
  | cons e es ih =>
    rw [vcons, if_neg (h e (by simp))]
    exact ih fun x hx => h x (by simp [hx])

theorem all2_mem_right {α β : Type} {R : α → β → Prop} {as : List α} {bs : List β} (h : All2 R as bs) :
    ∀ b ∈ bs, ∃ a ∈ as, R a b := by
  induction h with
  | nil => intro b hb; cases hb
  | cons h1 _ ih =>
    intro b hb
    rcases List.mem_cons.1 hb with rfl | hb
    · exact ⟨_, by simp, h1⟩
    · obtain ⟨a, ha, hr⟩ := ih b hb
      exact ⟨a, by simp [ha], hr⟩

section
variable {env : Env} {T D DT : Str}

/-- A key not written has no value in the result. -/
theorem key_absent {es : List (Str × Str)} {kvs : List (Str × Val)} {k : Str} (hk : k ≠ DT)
    (h : All2 (GivesC env T D DT) es kvs) (hv : valuesOf es k = []) : valuesOf kvs k = [] := by
  refine none_values fun r hr hk' => ?_
  obtain ⟨e, he, hg⟩ := all2_mem_right h r hr
  have := values_none hv e he
  rcases hg.cases with ⟨_, h2, _⟩ | ⟨h1, h2, _⟩ | ⟨h1, _⟩
  · exact hk (hk'.symm.trans h2)
  · exact this (h1.trans (h2.symm.trans hk'))
  · exact this (h1.symm.trans hk')

theorem ddt_absent {es : List (Str × Str)} {kvs : List (Str × Val)} (hD : D ≠ DT)
    (h : All2 (GivesC env T D DT) es kvs) (hv : valuesOf es T = []) : valuesOf kvs DT = [] := by
  refine none_values fun r hr hk' => ?_
  obtain ⟨e, he, hg⟩ := all2_mem_right h r hr
  have := values_none hv e he
  rcases hg.cases with ⟨h1, _⟩ | ⟨_, h2, _⟩ | ⟨h1, _, h3, _⟩
  · exact this h1
  · exact hD (h2.symm.trans hk')
  · exact h3 (h1.symm.trans hk')

/-- The value of a key written once. -/
theorem key_once {es : List (Str × Str)} {kvs : List (Str × Val)} {k v : Str} (hk : k ≠ DT) (hT : k ≠ T)
    (h : All2 (GivesC env T D DT) es kvs) (hv : valuesOf es k = [v]) :
    (k = D ∧ ∃ l, env.value D v = some (.list l) ∧ valuesOf kvs k = [.list (l.map asRange)]) ∨
    (k ≠ D ∧ ∃ w, env.value k v = some w ∧ valuesOf kvs k = [w]) := by
  obtain ⟨a, c, rfl, h1, h2⟩ := values_single hv
  obtain ⟨b1, y, b2, rfl, i1, i2, i3⟩ := all2_split h
  rw [valuesOf_app, key_absent hk i1 h1, vcons, key_absent hk i3 h2]
  rcases i2.cases with ⟨j1, _⟩ | ⟨j1, j2, l, j3, j4⟩ | ⟨j1, j2, _, _, j5⟩
  · exact absurd j1 hT
  · simp only at j1 j3
    exact .inl ⟨j1, l, j3, by rw [if_pos (j2.trans j1.symm), j4]; rfl⟩
  · simp only at j1 j2 j5
    exact .inr ⟨j2, y.2, j5, by rw [if_pos j1]; rfl⟩

theorem type_once {es : List (Str × Str)} {kvs : List (Str × Val)} {v : Str} (hD : D ≠ DT) (hT : T ≠ DT) (hTD : T ≠ D)
    (h : All2 (GivesC env T D DT) es kvs) (hv : valuesOf es T = [v]) :
    (env.intrinsic v = true ∧ ∃ w, env.value T v = some w ∧ valuesOf kvs T = [w]) ∨
    (env.intrinsic v = false ∧ valuesOf kvs DT = [.text v] ∧ valuesOf kvs T = []) := by
  obtain ⟨a, c, rfl, h1, h2⟩ := values_single hv
  obtain ⟨b1, y, b2, rfl, i1, i2, i3⟩ := all2_split h
  rw [valuesOf_app, valuesOf_app, key_absent hT i1 h1, ddt_absent hD i1 h1, vcons, vcons,
    key_absent hT i3 h2, ddt_absent hD i3 h2]
  rcases i2.cases with ⟨_, j2, j3, j4⟩ | ⟨j1, _⟩ | ⟨j1, _, _, j4, j5⟩
  · simp only at j3 j4
    refine .inr ⟨j4, by rw [if_pos j2, j3]; rfl, by rw [j2, if_neg (Ne.symm hT)]; rfl⟩
  · exact absurd j1 hTD
  · simp only at j1 j4 j5
    exact .inl ⟨j4 trivial, y.2, j5, by rw [if_pos j1]; rfl⟩

end

theorem VarMeans.effect {env : Env} (hok : env.Ok) {stype : Str} {known : Str → Prop} {reg : Str → Bool} {d : VarDoc} {p : Props}
    (h : VarMeans env stype known reg d p) : VarEffect env d p := by
  obtain ⟨kvs, hg0, hp⟩ := h.given
  have hg := hg0.imp fun _ _ _ h => Gives.toC hok h
  have hne : ∀ k : Str, k ≠ "local_name".toList → p k = (valuesOf kvs k).getLast? := by
    intro k hk; rw [hp]; simp only [if_neg hk]; rfl
  refine ⟨fun v hv => ?_, fun v hv => ?_, fun k v hk hv => ?_, fun hv => ?_⟩
  · rcases type_once (by decide) (by decide) (by decide) hg hv with ⟨h1, w, h2, h3⟩ | ⟨h1, h2, h3⟩
    · rw [h1, if_pos rfl, hne _ (by decide), h3, h2]
      exact ⟨rfl, fun h => nomatch h⟩
    · rw [h1, if_neg (by simp), hne _ (by decide), hne _ (by decide), h2, h3]
      exact ⟨rfl, rfl⟩
  · rcases key_once (by decide) (by decide) hg hv with ⟨_, l, h1, h2⟩ | ⟨h1, _⟩
    · exact ⟨l, h1, by rw [hne _ (by decide), h2]; rfl⟩
    · exact absurd rfl h1
  · simp only [List.mem_cons, List.not_mem_nil, or_false, not_or] at hk
    by_cases hd : k = "ddt_type".toList
    · exfalso
      have hv' : valuesOf d.entries k = [v] := hv
      obtain ⟨a, c, he, _, _⟩ := values_single hv'
      rw [he] at hg
      obtain ⟨_, y, _, _, _, i2, _⟩ := all2_split hg
      rcases i2.cases with ⟨j1, _⟩ | ⟨j1, _⟩ | ⟨_, _, j3, _⟩
      · exact hk.1 j1
      · exact hk.2.1 j1
      · exact j3 hd
    · rcases key_once hd hk.1 hg hv with ⟨h1, _⟩ | ⟨_, w, h1, h2⟩
      · exact absurd h1 hk.2.1
      · rw [hne _ hk.2.2, h2, h1]
        exact ⟨rfl, fun h => nomatch h⟩
  · rw [hp]
    simp only [if_true, lastValue, key_absent (by decide) hg hv]
    rfl

theorem lastValue_once {es : List (Str × Str)} {k v : Str} (h : Once es k v) : lastValue es k = some v := by
  rw [lastValue, show valuesOf es k = [v] from h]; rfl

theorem mem_of_once {es : List (Str × Str)} {k v : Str} (h : Once es k v) : ∃ e ∈ es, e.1 = k := by
  have hm : v ∈ valuesOf es k := by rw [show valuesOf es k = [v] from h]; simp
  unfold valuesOf at hm
  rw [List.mem_filterMap] at hm
  obtain ⟨e, he, h⟩ := hm
  refine ⟨e, he, ?_⟩
  split at h
  · assumption
  · cases h

theorem SectMeans.effect {env : Env} (hok : env.Ok) {tname ttype : Option Str} {known : Str → Prop} {reg : Str → Bool}
    {d : SectDoc} {s : Section} (h : SectMeans env tname ttype known reg d s) : SectEffect env d s := by
  refine ⟨fun k v hv => ?_, h.vars.imp fun _ _ _ h => VarMeans.effect hok h⟩
  obtain ⟨e, he, hk⟩ := mem_of_once hv
  have hmem := h.keys e he
  rw [hk] at hmem
  simp only [List.mem_cons, List.not_mem_nil, or_false] at hmem
  have hl := lastValue_once hv
  rcases hmem with rfl | rfl | rfl | rfl
  · exact .inl ⟨rfl, by have := h.title; rw [hl] at this; injection this with this; exact this.symm⟩
  · exact .inr (.inl ⟨rfl, by have := h.type; rw [hl] at this; injection this with this; exact this.symm⟩)
  · exact .inr (.inr (.inl ⟨rfl, by rw [h.module, hl]; rfl⟩))
  · exact .inr (.inr (.inr ⟨rfl, by rw [h.process, hl]; rfl⟩))

theorem TableMeans.effect {env : Env} (hok : env.Ok) {known : Str → Prop} {reg : Str → Bool}
    {d : TableDoc} {t : Table} (h : TableMeans env known reg d t) : TableEffect env d t := by
  refine ⟨fun k v hv => ?_, fun v hv => ?_, h.sects.imp fun _ _ _ h => SectMeans.effect hok h⟩
  · obtain ⟨e, he, hk⟩ := mem_of_once hv
    have hmem := h.keys e he
    rw [hk] at hmem
    simp only [List.mem_cons, List.not_mem_nil, or_false] at hmem
    have hl := lastValue_once hv
    rcases hmem with rfl | rfl | rfl | rfl
    · exact .inl ⟨rfl, by rw [h.name, hl]⟩
    · exact .inr (.inl ⟨rfl, by rw [h.type, hl]⟩)
    · exact .inr (.inr (.inr rfl))
    · exact .inr (.inr (.inl ⟨rfl, by rw [h.path, hl]⟩))
  · obtain ⟨ds, hd, ht⟩ := h.deps
    generalize valuesOf d.entries "dependencies".toList = vs at hv hd
    cases hd with
    | items hno =>
      rw [if_neg (hno v hv)]
      intro x hx hne
      rw [ht, List.mem_map]
      refine ⟨strip x, ?_, rfl⟩
      rw [List.mem_flatMap]
      exact ⟨v, hv, List.mem_filter.2 ⟨List.mem_map.2 ⟨x, hx, rfl⟩, by simpa using hne⟩⟩
    | nothing ha _ hb =>
      rw [ht]
      rcases List.mem_append.1 hv with h1 | h1
      · rw [if_neg (ha v h1).1]
        intro x hx hne
        exact absurd ((ha v h1).2 x hx) hne
      · rw [if_pos (hb v h1)]; rfl

/-- **C63 (partial).**  In an accepted file every entry whose key is written once in its table header, section header
or variable takes effect (except `local_name`, and a `type` entry next to another one).  Not covered, and false: see
`C63_violated`. -/
theorem C63_effect_partial {env : Env} (hok : env.Ok) (ty ty' : Types) (file : List Str) (ts : List Table)
    (h : parseFile env ty (PO.logical file) = some (ts, ty')) :
    ∃ docs, FileText (PO.logical file) docs ∧ docs.length = ts.length ∧
      ∀ (i : Nat) d t, docs[i]? = some d → ts[i]? = some t → TableEffect env d t := by
  obtain ⟨docs, h1, h2⟩ := (C62_metadata_file hok ty file ts).1.1 ⟨ty', h⟩
  exact ⟨docs, h1, h2.2.1, fun i d t hd ht => (h2.2.2 i d t hd ht).effect hok⟩

/-- A file with repeated and misplaced text. -/
def exRepeated : List Str :=
  ["[ccpp-table-properties] name = ignored".toList,
   "  name = foo | type = host".toList,
   "  name = bar | type = module".toList,
   "[ccpp-arg-table] this is not read".toList,
   "  name = bar | type = module".toList,
   "[ q ]".toList,
   "  standard_name = water | units = kg | units = m".toList,
   "  type = real | type = vmr_t | local_name = p".toList,
   "[ccpp-table-properties]".toList]

/-- **C63 violated.**  Accepted files in which what is written has no effect: of two entries with the same key the first is
ignored (name and type of the table, units of the variable); the type of a variable may be given as intrinsic type and as
derived type; a `local_name` entry replaces the name written in brackets; what follows a bracketed table or section start on
its line is ignored; and a table without name and type is accepted. -/
theorem C63_violated :
    (parseFile exEnv ⟨["vmr_t".toList], ["vmr_t".toList]⟩ exRepeated).map exTables =
      some [(some "bar".toList, some "module".toList, []), (none, none, [])] ∧
    (parseFile exEnv ⟨["vmr_t".toList], ["vmr_t".toList]⟩ exRepeated).map (exProp "units".toList) =
      some [some (.text "m".toList)] ∧
    (parseFile exEnv ⟨["vmr_t".toList], ["vmr_t".toList]⟩ exRepeated).map (exProp "type".toList) =
      some [some (.text "real".toList)] ∧
    (parseFile exEnv ⟨["vmr_t".toList], ["vmr_t".toList]⟩ exRepeated).map (exProp "ddt_type".toList) =
      some [some (.text "vmr_t".toList)] ∧
    (parseFile exEnv ⟨["vmr_t".toList], ["vmr_t".toList]⟩ exRepeated).map (exProp "local_name".toList) =
      some [some (.text "p".toList)] := by
  refine ⟨by decide, by decide, by decide, by decide, by decide⟩

/-- A derived type with a component of its own type. -/
def exRecursive : List Str :=
  ["[ccpp-table-properties]".toList,
   "  name = node_t | type = ddt".toList,
   "[ccpp-arg-table]".toList,
   "  name = node_t | type = ddt".toList,
   "[ child ]".toList,
   "  standard_name = next | type = node_t".toList]

/-- The parser knows the derived type inside its own table, but it is registered only after the section
(metadata_table.py:711-713), so a component of the type itself is refused by `Var`. -/
theorem C63_recursive_refused :
    (parseFile exEnv ⟨[], []⟩ exRecursive).isNone = true ∧
    (parseFile exEnv ⟨[], ["node_t".toList]⟩ exRecursive).isSome = true := by
  refine ⟨by decide, by decide⟩

end Ccpp.MF
