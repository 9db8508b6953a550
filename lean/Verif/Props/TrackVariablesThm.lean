import Verif.Props.TrackVariables
import Verif.Props.PrebuildArgs
/-! # C78: the report of ccpp_track_variables -/
namespace Ccpp.TV
open FDecl (Str Blank)
open MF

/-! ## The file of a scheme -/

theorem FileOk.names {env : Env} (hok : env.Ok) {read : Str → Option (List Table)} {f : Str × List Str} (h : FileOk env read f) :
    ∃ ns ts, findNames false f.2 = some ns ∧ read f.1 = some ts ∧ (ts.map (·.name)).Nodup ∧ ∀ n, n ∈ ns ↔ ∃ t ∈ ts, t.name = some n := by
  obtain ⟨-, docs, ty, ts, ht, hm, hr, h1, hl⟩ := h
  refine ⟨_, ts, findNames_file hok ht hm hl, hr, hm.1, fun n => ?_⟩
  have key : ∀ (i : Nat) (d : TableDoc) (t : Table), docs[i]? = some d → ts[i]? = some t → ∀ n, n ∈ valuesOf d.entries "name".toList ↔ t.name = some n := by
    intro i d t hd htt n
    have h2 := (hm.2.2 i d t hd htt).name
    have h3 := h1 d (List.mem_of_getElem? hd)
    obtain ⟨x, hx⟩ := List.length_eq_one_iff.1 h3
    rw [h2, lastValue, hx]
    simp [eq_comm]
  simp only [List.mem_flatMap]
  constructor
  · rintro ⟨d, hd, hn⟩
    obtain ⟨i, hi⟩ := List.mem_iff_getElem?.1 hd
    have hlt : i < ts.length := by rw [← hm.2.1]; exact (List.getElem?_eq_some_iff.1 hi).1
    exact ⟨ts[i], List.getElem_mem hlt, (key i d ts[i] hi (List.getElem?_eq_getElem hlt) n).1 hn⟩
  · rintro ⟨t, htm, hn⟩
    obtain ⟨i, hi⟩ := List.mem_iff_getElem?.1 htm
    have hlt : i < docs.length := by rw [hm.2.1]; exact (List.getElem?_eq_some_iff.1 hi).1
    exact ⟨docs[i], List.getElem_mem hlt, (key i docs[i] t (List.getElem?_eq_getElem hlt) hi n).2 hn⟩

theorem assign_fold (ns : List Str) (v : Str) (d : List (Str × Str)) (n : Str) :
    (ns.foldl (fun d n => assign d n v) d).lookup n = if n ∈ ns then some v else d.lookup n := by
  induction ns generalizing d with
  | nil => simp
  | cons a ns ih =>
    rw [List.foldl_cons, ih]
    by_cases h : n ∈ ns
    · simp [h]
    · rw [if_neg h]
      by_cases h' : n = a
      · subst h'; simp [assign]
      · rw [if_neg (by simp [h, h']), assign, List.lookup_cons, beq_false_of_ne h']

theorem fileDict_files (N : Str × List Str → List Str) (fs : List (Str × List Str)) (h : ∀ f ∈ fs, findNames false f.2 = some (N f))
    (d : List (Str × Str)) :
    ∃ d', fileDict d fs = some d' ∧ ∀ n, ((∀ f ∈ fs, n ∉ N f) ∧ d'.lookup n = d.lookup n) ∨ ∃ f ∈ fs, n ∈ N f ∧ d'.lookup n = some f.1 := by
  induction fs generalizing d with
  | nil => exact ⟨d, rfl, fun n => .inl ⟨by simp, rfl⟩⟩
  | cons f fs ih =>
    obtain ⟨d', hd, hn⟩ := ih (fun g hg => h g (by simp [hg])) ((N f).foldl (fun d n => assign d n f.1) d)
    refine ⟨d', by rw [fileDict, h f (by simp)]; exact hd, fun n => ?_⟩
    rcases hn n with ⟨h1, h2⟩ | ⟨g, hg, h1, h2⟩
    · rw [assign_fold] at h2
      by_cases hf : n ∈ N f
      · rw [if_pos hf] at h2
        exact .inr ⟨f, by simp, hf, h2⟩
      · rw [if_neg hf] at h2
        refine .inl ⟨fun g hg => ?_, h2⟩
        rcases List.mem_cons.1 hg with rfl | hg
        · exact hf
        · exact h1 g hg
    · exact .inr ⟨g, by simp [hg], h1, h2⟩

/-! ## Sections and tables -/

theorem textProp_eq (p : Props) (k : String) : textProp p k = prop p k := rfl

theorem scanVars_eq (var : Str) (ps : List Props) (found : List Str) :
    scanVars var found ps = match ps.find? fun p => prop p "standard_name" == var with
      | some p => (some (prop p "intent"), [])
      | none => (none, found ++ (ps.map fun p => prop p "standard_name").filter fun n => decide (var <:+: n)) := by
  induction ps generalizing found with
  | nil => simp [scanVars]
  | cons p ps ih =>
    rw [scanVars, textProp_eq, textProp_eq, List.find?_cons]
    by_cases h : var = prop p "standard_name"
    · rw [if_pos h, ← h]; simp
    · rw [if_neg h, ih]
      have h' : (prop p "standard_name" == var) = false := beq_false_of_ne fun e => h e.symm
      rw [h']
      simp only [List.map_cons, List.filter_cons]
      by_cases hi : var <:+: prop p "standard_name"
      · rw [if_pos ((PA.inText_iff _ _).2 hi), decide_eq_true hi]; simp
      · rw [if_neg (fun c => hi ((PA.inText_iff _ _).1 c)), decide_eq_false hi]; simp

/-- The partial matches of a section are kept. -/
def keep (var : Str) (ps : List (Str × List Str)) (s : Section) : List (Str × List Str) :=
  if similar var s = [] then ps else PB.dset ps s.title (similar var s)

theorem doSection_eq {var : Str} (hv : var ≠ []) (st : St) (s : Section) :
    doSection var st s = match useOf var s with
      | some p => ⟨st.entries ++ [(s.title, prop p "intent")], st.partials⟩
      | none => ⟨st.entries, keep var st.partials s⟩ := by
  have he : var.isEmpty = false := by simpa using hv
  unfold doSection useOf keep similar
  rw [scanVars_eq]
  cases h : s.vars.find? fun p => prop p "standard_name" == var with
  | some p => simp [he]
  | none =>
    simp only [List.nil_append]
    split
    · next h1 => simp at h1
    · next h1 => simp only [Prod.mk.injEq, true_and] at h1; rw [if_pos h1]
    · next h1 h2 =>
      simp only [Prod.mk.injEq, true_and] at h2
      subst h2
      rw [if_neg (by intro c; exact h1 (by rw [c]))]

theorem secs_entries {var : Str} (hv : var ≠ []) (ss : List Section) (st : St) :
    (ss.foldl (doSection var) st).entries = st.entries ++ ss.filterMap fun s => (useOf var s).map fun p => (s.title, prop p "intent") := by
  induction ss generalizing st with
  | nil => simp
  | cons s ss ih =>
    rw [List.foldl_cons, ih, doSection_eq hv]
    cases h : useOf var s with
    | some p => rw [List.filterMap_cons_some (by rw [h]; rfl)]; simp
    | none => rw [List.filterMap_cons_none (by rw [h]; rfl)]

/-- The partial matches after some sections -/
def keeps (var : Str) (ps : List (Str × List Str)) (ss : List Section) : List (Str × List Str) :=
  (ss.filter fun s => (useOf var s).isNone).foldl (keep var) ps

theorem secs_partials {var : Str} (hv : var ≠ []) (ss : List Section) (st : St) :
    (ss.foldl (doSection var) st).partials = keeps var st.partials ss := by
  induction ss generalizing st with
  | nil => rfl
  | cons s ss ih =>
    rw [List.foldl_cons, ih, doSection_eq hv]
    unfold keeps
    cases h : useOf var s with
    | some p => simp [h]
    | none => simp [h]

theorem doTables {var scheme : Str} {ts : List Table} (hn : (ts.map (·.name)).Nodup) {t : Table} (ht : t ∈ ts) (he : t.name = some scheme) (st : St) :
    ts.foldl (doTable var scheme) st = t.sects.foldl (doSection var) st := by
  have skip : ∀ (us : List Table) (st : St), (∀ u ∈ us, u.name ≠ some scheme) → us.foldl (doTable var scheme) st = st := by
    intro us
    induction us with
    | nil => intros; rfl
    | cons u us ih =>
      intro st h
      rw [List.foldl_cons, doTable, if_neg (h u (by simp))]
      exact ih st fun v hv => h v (by simp [hv])
  obtain ⟨a, b, rfl⟩ := List.append_of_mem ht
  rw [List.map_append, List.map_cons, List.nodup_append] at hn
  obtain ⟨_, hb, hd⟩ := hn
  rw [List.nodup_cons] at hb
  rw [List.foldl_append, List.foldl_cons, skip a, doTable, if_pos he, skip b]
  · intro u hu c
    exact hb.1 (by rw [he, ← c]; exact List.mem_map_of_mem hu)
  · intro u hu c
    exact hd u.name (List.mem_map_of_mem hu) t.name (by simp) (by rw [c, he])

/-! ## The call tree -/

theorem doScheme_ok {dict : List (Str × Str)} {read : Str → Option (List Table)} {var s : Str} {f : Str} {ts : List Table} {t : Table}
    (h1 : dict.lookup s = some f) (h2 : read f = some ts) (hn : (ts.map (·.name)).Nodup) (ht : t ∈ ts) (he : t.name = some s) (st : St) :
    doScheme dict read var st s = some (t.sects.foldl (doSection var) st) := by
  simp only [doScheme, h1, Option.bind_some, h2, Option.map_some, doTables hn ht he]

theorem group_ok {dict : List (Str × Str)} {read : Str → Option (List Table)} {var : Str} {T : Str → Table} (ss : List Str)
    (h : ∀ s ∈ ss, ∀ st, doScheme dict read var st s = some ((T s).sects.foldl (doSection var) st)) (st : St) :
    ss.foldlM (doScheme dict read var) st = some ((ss.flatMap fun s => (T s).sects).foldl (doSection var) st) := by
  induction ss generalizing st with
  | nil => rfl
  | cons s ss ih =>
    rw [List.foldlM_cons, h s (by simp)]
    show ss.foldlM _ _ = _
    rw [ih fun x hx => h x (by simp [hx]), List.flatMap_cons, List.foldl_append]

theorem groups_ok {dict : List (Str × Str)} {read : Str → Option (List Table)} {var : Str} (hv : var ≠ []) {T : Str → Table} (gs : List (Str × List Str))
    (h : ∀ g ∈ gs, ∀ s ∈ g.2, ∀ st, doScheme dict read var st s = some ((T s).sects.foldl (doSection var) st)) (ps : List (Str × List Str)) :
    groups dict read var ps gs = some (gs.map fun g => (g.1, g.2.flatMap fun s => mentions var (T s)),
      keeps var ps (gs.flatMap fun g => g.2.flatMap fun s => (T s).sects)) := by
  induction gs generalizing ps with
  | nil => rfl
  | cons g gs ih =>
    rw [groups, group_ok g.2 (h g (by simp))]
    simp only [Option.bind_some]
    rw [ih (fun g' hg => h g' (by simp [hg])), secs_partials hv, secs_entries hv]
    simp only [List.nil_append, Option.map_some, List.map_cons, List.flatMap_cons]
    have e1 : ((g.2.flatMap fun s => (T s).sects).filterMap fun s => (useOf var s).map fun p => (s.title, prop p "intent")) =
        g.2.flatMap fun s => mentions var (T s) := by
      unfold mentions
      rw [List.filterMap_flatMap]
    have e2 : keeps var (keeps var ps (g.2.flatMap fun s => (T s).sects)) (gs.flatMap fun g => g.2.flatMap fun s => (T s).sects) =
        keeps var ps (g.2.flatMap (fun s => (T s).sects) ++ gs.flatMap fun g => g.2.flatMap fun s => (T s).sects) := by
      unfold keeps; rw [List.filter_append, List.foldl_append]
    rw [e1, e2]

theorem groups_none {dict : List (Str × Str)} {read : Str → Option (List Table)} {var s : Str} (hs : dict.lookup s = none) (gs : List (Str × List Str))
    (h : ∃ g ∈ gs, s ∈ g.2) (ps : List (Str × List Str)) : groups dict read var ps gs = none := by
  have key : ∀ (ss : List Str) (st : St), s ∈ ss → ss.foldlM (doScheme dict read var) st = none := by
    intro ss
    induction ss with
    | nil => intro st h; cases h
    | cons a ss ih =>
      intro st h
      rw [List.foldlM_cons]
      rcases List.mem_cons.1 h with rfl | h
      · rw [doScheme, hs]; rfl
      · cases doScheme dict read var st a with
        | none => rfl
        | some st' => exact ih st' h
  induction gs generalizing ps with
  | nil => obtain ⟨_, h, _⟩ := h; cases h
  | cons g gs ih =>
    rw [groups]
    obtain ⟨g', hg, hs'⟩ := h
    rcases List.mem_cons.1 hg with rfl | hg
    · rw [key _ _ hs']; rfl
    · cases g.2.foldlM (doScheme dict read var) ⟨[], ps⟩ with
      | none => rfl
      | some st => simp only [Option.bind_some]; rw [ih ⟨g', hg, hs'⟩]; rfl

/-- The file of a scheme, in the directory. -/
theorem files_dict {env : Env} (hok : env.Ok) {read : Str → Option (List Table)} {files : List (Str × List Str)} (hf : ∀ f ∈ files, FileOk env read f) :
    ∃ dict, fileDict [] files = some dict ∧ ∀ s, (dict.lookup s = none ∧ ¬∃ t, Owner files read s t) ∨
      ∃ fn ts t, dict.lookup s = some fn ∧ read fn = some ts ∧ (ts.map (·.name)).Nodup ∧ t ∈ ts ∧ t.name = some s ∧ Owner files read s t := by
  have h0 : ∀ f, ∃ ns, f ∈ files → ∃ ts, findNames false f.2 = some ns ∧ read f.1 = some ts ∧ (ts.map (·.name)).Nodup ∧
      ∀ n, n ∈ ns ↔ ∃ t ∈ ts, t.name = some n := by
    intro f
    by_cases h : f ∈ files
    · obtain ⟨ns, ts, h⟩ := (hf f h).names hok
      exact ⟨ns, fun _ => ⟨ts, h⟩⟩
    · exact ⟨[], fun c => absurd c h⟩
  obtain ⟨N, hN⟩ := Classical.skolem.1 h0
  obtain ⟨dict, hd, hn⟩ := fileDict_files N files (fun f h => by obtain ⟨ts, h1, _⟩ := hN f h; exact h1) []
  refine ⟨dict, hd, fun s => ?_⟩
  rcases hn s with ⟨h1, h2⟩ | ⟨f, hfm, h1, h2⟩
  · refine .inl ⟨h2, ?_⟩
    rintro ⟨t, f, hfm, ts, hr, ht, hn⟩
    obtain ⟨ts', _, hr', _, hi⟩ := hN f hfm
    rw [hr] at hr'; cases hr'
    exact h1 f hfm ((hi s).2 ⟨t, ht, hn⟩)
  · obtain ⟨ts, _, hr, hnd, hi⟩ := hN f hfm
    obtain ⟨t, ht, hn⟩ := (hi s).1 h1
    exact .inr ⟨f.1, ts, t, h2, hr, hnd, ht, hn, f, hfm, ts, hr, ht, hn⟩

/-- **C78, unknown schemes**: for a directory of readable files, the report fails exactly if a scheme of the suite has no table in the directory. -/
theorem C78_unknown {env : Env} (hok : env.Ok) {read : Str → Option (List Table)} {files : List (Str × List Str)} (hf : ∀ f ∈ files, FileOk env read f)
    (hne : files ≠ []) (tree : List (Str × List Str)) {var : Str} (hv : var ≠ []) :
    track files read tree var = none ↔ ∃ g ∈ tree, ∃ s ∈ g.2, ¬∃ t, Owner files read s t := by
  obtain ⟨dict, hd, hs⟩ := files_dict hok hf
  have he : files.isEmpty = false := by simpa using hne
  unfold track
  rw [he, hd]
  simp only [Bool.false_eq_true, if_false, Option.bind_some, Option.map_eq_none_iff]
  constructor
  · intro h
    refine Classical.byContradiction fun hc => ?_
    have h0 : ∀ s, ∃ t : Table, (∃ g ∈ tree, s ∈ g.2) → ∀ st, doScheme dict read var st s = some (t.sects.foldl (doSection var) st) := by
      intro s
      rcases hs s with ⟨_, h2⟩ | ⟨fn, ts, t, h1, h2, h3, h4, h5, _⟩
      · exact ⟨⟨none, none, [], none, []⟩, fun ⟨g, hg, hsg⟩ => absurd ⟨g, hg, s, hsg, h2⟩ hc⟩
      · exact ⟨t, fun _ => doScheme_ok h1 h2 h3 h4 h5⟩
    obtain ⟨T, hT⟩ := Classical.skolem.1 h0
    rw [groups_ok hv tree fun g hg s hsg => hT s ⟨g, hg, hsg⟩] at h
    cases h
  · rintro ⟨g, hg, s, hsg, hno⟩
    rcases hs s with ⟨h1, _⟩ | ⟨fn, ts, t, _, _, _, _, _, h⟩
    · exact groups_none h1 tree ⟨g, hg, hsg⟩ []
    · exact absurd ⟨t, h⟩ hno

theorem dset_any (d : List (Str × List Str)) (k : Str) (v : List Str) (e : Str × List Str) :
    e ∈ PB.dset d k v → e = (k, v) ∨ (e ∈ d ∧ e.1 ≠ k) := by
  unfold PB.dset
  split
  · rw [List.mem_map]
    rintro ⟨a, ha, rfl⟩
    split
    · exact .inl rfl
    · next h => exact .inr ⟨ha, h⟩
  · next h =>
    rw [List.mem_append]
    rintro (h1 | h1)
    · refine .inr ⟨h1, fun c => h ?_⟩
      rw [List.any_eq_true]
      exact ⟨e, h1, by simp [c]⟩
    · exact .inl (by simpa using h1)

theorem dset_keys (d : List (Str × List Str)) (k : Str) (v : List Str) : (k, v) ∈ PB.dset d k v ∧ ∀ e ∈ d, ∃ w, (e.1, w) ∈ PB.dset d k v := by
  unfold PB.dset
  split
  · next h =>
    rw [List.any_eq_true] at h
    obtain ⟨a, ha, hk⟩ := h
    have hk : a.1 = k := by simpa using hk
    refine ⟨List.mem_map.2 ⟨a, ha, by rw [if_pos hk]⟩, fun e he => ?_⟩
    by_cases h : e.1 = k
    · exact ⟨v, List.mem_map.2 ⟨e, he, by rw [if_pos h, h]⟩⟩
    · exact ⟨e.2, List.mem_map.2 ⟨e, he, by rw [if_neg h]⟩⟩
  · exact ⟨by simp, fun e he => ⟨e.2, by simp [he]⟩⟩

theorem keeps_sound (var : Str) (ss : List Section) (ps : List (Str × List Str)) :
    (∀ e ∈ ss.foldl (keep var) ps, e ∈ ps ∨ ∃ s ∈ ss, e = (s.title, similar var s) ∧ similar var s ≠ []) ∧
    (∀ e ∈ ps, ∃ w, (e.1, w) ∈ ss.foldl (keep var) ps) ∧
    (∀ s ∈ ss, similar var s ≠ [] → ∃ w, (s.title, w) ∈ ss.foldl (keep var) ps) := by
  induction ss generalizing ps with
  | nil => exact ⟨fun e he => .inl he, fun e he => ⟨e.2, he⟩, by simp⟩
  | cons s ss ih =>
    obtain ⟨h1, h2, h3⟩ := ih (keep var ps s)
    rw [List.foldl_cons]
    have hk : ∀ e ∈ ps, ∃ w, (e.1, w) ∈ keep var ps s := by
      intro e he
      unfold keep
      split
      · exact ⟨e.2, he⟩
      · exact (dset_keys _ _ _).2 e he
    refine ⟨fun e he => ?_, fun e he => ?_, fun u hu hne => ?_⟩
    · rcases h1 e he with h | ⟨u, hu, h⟩
      · unfold keep at h
        split at h
        · exact .inl h
        · next hs =>
          rcases dset_any _ _ _ _ h with rfl | ⟨h, _⟩
          · exact .inr ⟨s, by simp, rfl, hs⟩
          · exact .inl h
      · exact .inr ⟨u, by simp [hu], h⟩
    · obtain ⟨w, hw⟩ := hk e he
      exact h2 (e.1, w) hw
    · rcases List.mem_cons.1 hu with rfl | hu
      · have : (u.title, similar var u) ∈ keep var ps u := by
          unfold keep; rw [if_neg hne]; exact (dset_keys _ _ _).1
        exact h2 _ this
      · exact h3 u hu hne

/-- **C78, the report** (what is missing: a scheme with tables in two files, see the violation; files the parser reads but the search for names
does not, see the violations).  For a directory of readable files, a report names, group by group and in the order of the suite, exactly the
sections of the tables of the schemes that use the variable, each with its intent; it is a success iff there is one.  Otherwise the sections
with names that contain the text are printed, and nothing else. -/
theorem C78_track_partial {env : Env} (hok : env.Ok) {read : Str → Option (List Table)} {files : List (Str × List Str)}
    (hf : ∀ f ∈ files, FileOk env read f) {tree : List (Str × List Str)} {var : Str} (hv : var ≠ []) {r : Result}
    (h : track files read tree var = some r) :
    ∃ T : Str → Table, (∀ g ∈ tree, ∀ s ∈ g.2, Owner files read s (T s)) ∧
      r.graph = tree.map (fun g => (g.1, g.2.flatMap fun s => mentions var (T s))) ∧
      (r.success = true ↔ ∃ g ∈ tree, ∃ s ∈ g.2, mentions var (T s) ≠ []) ∧
      (r.success = true → r.partials = []) ∧
      (r.success = false → (∀ e ∈ r.partials, ∃ g ∈ tree, ∃ s ∈ g.2, ∃ sec ∈ (T s).sects, e = (sec.title, similar var sec) ∧ similar var sec ≠ []) ∧
        ∀ g ∈ tree, ∀ s ∈ g.2, ∀ sec ∈ (T s).sects, similar var sec ≠ [] → ∃ ns, (sec.title, ns) ∈ r.partials) := by
  obtain ⟨dict, hd, hs⟩ := files_dict hok hf
  have hne : files.isEmpty = false := by
    cases e : files.isEmpty with
    | false => rfl
    | true => unfold track at h; rw [e] at h; cases h
  have hall : ∀ g ∈ tree, ∀ s ∈ g.2, ∃ t, Owner files read s t := by
    intro g hg s hsg
    refine Classical.byContradiction fun hc => ?_
    have := (C78_unknown hok hf (by simpa using hne) tree hv).2 ⟨g, hg, s, hsg, hc⟩
    rw [h] at this; cases this
  have h0 : ∀ s, ∃ t : Table, (∃ g ∈ tree, s ∈ g.2) → Owner files read s t ∧
      ∀ st, doScheme dict read var st s = some (t.sects.foldl (doSection var) st) := by
    intro s
    rcases hs s with ⟨_, h2⟩ | ⟨fn, ts, t, h1, h2, h3, h4, h5, h6⟩
    · exact ⟨⟨none, none, [], none, []⟩, fun ⟨g, hg, hsg⟩ => absurd (hall g hg s hsg) h2⟩
    · exact ⟨t, fun _ => ⟨h6, doScheme_ok h1 h2 h3 h4 h5⟩⟩
  obtain ⟨T, hT⟩ := Classical.skolem.1 h0
  have hg := groups_ok hv tree (fun g hg s hsg => (hT s ⟨g, hg, hsg⟩).2) []
  unfold track at h
  rw [hne, hd] at h
  simp only [Bool.false_eq_true, if_false, Option.bind_some, hg, Option.map_some, Option.some.injEq] at h
  subst h
  have hsucc : ((tree.map fun g => (g.1, g.2.flatMap fun s => mentions var (T s))).any fun g => !g.2.isEmpty) = true ↔
      ∃ g ∈ tree, ∃ s ∈ g.2, mentions var (T s) ≠ [] := by
    rw [List.any_eq_true]
    constructor
    · rintro ⟨_, hm, hb⟩
      obtain ⟨g, hg, rfl⟩ := List.mem_map.1 hm
      have hb : g.2.flatMap (fun s => mentions var (T s)) ≠ [] := by simpa using hb
      obtain ⟨x, hx⟩ := List.exists_mem_of_ne_nil _ hb
      obtain ⟨s, hs, hx⟩ := List.mem_flatMap.1 hx
      exact ⟨g, hg, s, hs, List.ne_nil_of_mem hx⟩
    · rintro ⟨g, hg, s, hs, hm⟩
      refine ⟨_, List.mem_map.2 ⟨g, hg, rfl⟩, ?_⟩
      obtain ⟨x, hx⟩ := List.exists_mem_of_ne_nil _ hm
      have : g.2.flatMap (fun s => mentions var (T s)) ≠ [] := List.ne_nil_of_mem (List.mem_flatMap.2 ⟨s, hs, hx⟩)
      simpa using this
  refine ⟨T, fun g hg s hsg => (hT s ⟨g, hg, hsg⟩).1, rfl, hsucc, fun h => ?_, fun h => ?_⟩
  · rw [if_pos h]
  · have hno : ∀ g ∈ tree, ∀ s ∈ g.2, ∀ sec ∈ (T s).sects, useOf var sec = none := by
      intro g hg s hsg sec hsec
      refine Classical.byContradiction fun hc => ?_
      refine Bool.false_ne_true (h.symm.trans (hsucc.2 ⟨g, hg, s, hsg, ?_⟩))
      cases e : useOf var sec with
      | none => exact absurd e hc
      | some p =>
        exact List.ne_nil_of_mem (List.mem_filterMap.2 ⟨sec, hsec, by rw [e]; rfl⟩)
    have hmem : ∀ sec, sec ∈ ((tree.flatMap fun g => g.2.flatMap fun s => (T s).sects).filter fun s => (useOf var s).isNone) ↔
        ∃ g ∈ tree, ∃ s ∈ g.2, sec ∈ (T s).sects := by
      intro sec
      rw [List.mem_filter]
      simp only [List.mem_flatMap]
      constructor
      · exact fun h => h.1
      · intro h
        refine ⟨h, ?_⟩
        obtain ⟨g, hg, s, hsg, hsec⟩ := h
        rw [hno g hg s hsg sec hsec]; rfl
    obtain ⟨k1, _, k3⟩ := keeps_sound var ((tree.flatMap fun g => g.2.flatMap fun s => (T s).sects).filter fun s => (useOf var s).isNone) []
    rw [if_neg (Bool.eq_false_iff.1 h)]
    refine ⟨fun e he => ?_, fun g hg s hsg sec hsec hne => k3 sec ((hmem sec).2 ⟨g, hg, s, hsg, hsec⟩) hne⟩
    rcases k1 e he with h' | ⟨sec, hsec, h'⟩
    · cases h'
    · obtain ⟨g, hg, s, hsg, hs⟩ := (hmem sec).1 hsec
      exact ⟨g, hg, s, hsg, sec, hs, h'⟩

/-- **C78, the order of the files**: if every scheme of the suite has one table in the directory, the report does not depend on the order of the
files. -/
theorem C78_order_partial {env : Env} (hok : env.Ok) {read : Str → Option (List Table)} {files files' : List (Str × List Str)}
    (hf : ∀ f ∈ files, FileOk env read f) (hp : ∀ f, f ∈ files ↔ f ∈ files') {tree : List (Str × List Str)} {var : Str} (hv : var ≠ [])
    (hu : ∀ g ∈ tree, ∀ s ∈ g.2, ∀ t u, Owner files read s t → Owner files read s u → t = u) :
    (track files read tree var).map (fun r => (r.success, r.graph)) = (track files' read tree var).map fun r => (r.success, r.graph) := by
  have hf' : ∀ f ∈ files', FileOk env read f := fun f h => hf f ((hp f).2 h)
  have ho : ∀ s t, Owner files read s t ↔ Owner files' read s t := by
    intro s t
    unfold Owner
    constructor
    · rintro ⟨f, h1, h2⟩; exact ⟨f, (hp f).1 h1, h2⟩
    · rintro ⟨f, h1, h2⟩; exact ⟨f, (hp f).2 h1, h2⟩
  by_cases hne : files = []
  · subst hne
    have : files' = [] := by
      cases files' with
      | nil => rfl
      | cons a as => exact absurd ((hp a).2 (by simp)) (by simp)
    rw [this]
  · have hne' : files' ≠ [] := by
      rintro rfl
      cases files with
      | nil => exact hne rfl
      | cons a as => exact absurd ((hp a).1 (by simp)) (by simp)
    have u1 := C78_unknown hok hf hne tree hv
    have u2 := C78_unknown hok hf' hne' tree hv
    cases e1 : track files read tree var with
    | none =>
      obtain ⟨g, hg, s, hs, hno⟩ := u1.1 e1
      rw [u2.2 ⟨g, hg, s, hs, fun ⟨t, ht⟩ => hno ⟨t, (ho s t).2 ht⟩⟩]
    | some r =>
      cases e2 : track files' read tree var with
      | none =>
        obtain ⟨g, hg, s, hs, hno⟩ := u2.1 e2
        rw [u1.2 ⟨g, hg, s, hs, fun ⟨t, ht⟩ => hno ⟨t, (ho s t).1 ht⟩⟩] at e1
        cases e1
      | some r' =>
        obtain ⟨T, hT, h1, h2, _⟩ := C78_track_partial hok hf hv e1
        obtain ⟨T', hT', h1', h2', _⟩ := C78_track_partial hok hf' hv e2
        have hTT : ∀ g ∈ tree, ∀ s ∈ g.2, T s = T' s := fun g hg s hs => hu g hg s hs _ _ (hT g hg s hs) ((ho _ _).2 (hT' g hg s hs))
        have hg : r.graph = r'.graph := by
          rw [h1, h1']
          refine List.map_congr_left fun g hg => ?_
          refine Prod.ext rfl ?_
          exact List.flatMap_congr fun s hs => by rw [hTT g hg s hs]
        have hs : r.success = r'.success := by
          rw [Bool.eq_iff_iff, h2, h2']
          constructor
          · rintro ⟨g, hg, s, hs, h⟩; exact ⟨g, hg, s, hs, by rw [← hTT g hg s hs]; exact h⟩
          · rintro ⟨g, hg, s, hs, h⟩; exact ⟨g, hg, s, hs, by rw [hTT g hg s hs]; exact h⟩
        simp only [Option.map_some, hg, hs]

end Ccpp.TV
