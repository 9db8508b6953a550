import Verif.Props.PrebuildArgs
/-!
# C74: the arguments of suites, and examples
-/
namespace Ccpp.PA
open PB (Str IsName IsLiteral joined)

/-! ## Entries -/

theorem group_names {h : List HVar} (ho : HostOk h) {stage : SA.Stage} {calls : List (List (Str × Intent))} {ps : List Parent} (hg : group h stage calls = some ps) :
    (ps.map (·.std)).Nodup ∧ ∀ e ∈ ps, (IsName e.loc ∧ findParent h e.loc = some e.std) ∨ ∃ c, find h "ccpp_t_instance".toList = some c ∧ e.std = c.std ∧ e.loc = c.loc := by
  obtain ⟨st, hf, hp⟩ := group_some hg
  obtain ⟨j1, _⟩ := calls_ok ho calls (inv_start h) hf
  rcases hp with hp | ⟨_, _, c, hc, rfl⟩
  · rw [← hp]
    exact ⟨j1.keys, fun e he => Or.inl (j1.names e he)⟩
  · refine ⟨by simp, fun e he => ?_⟩
    rw [List.mem_singleton.1 he]
    exact Or.inr ⟨c, hc, rfl, rfl⟩

/-- **C74**  All dummy arguments of a cap have different names, and they are different variables of the host. -/
theorem C74_once {h : List HVar} (ho : HostOk h) {stage : SA.Stage} {calls : List (List (Str × Intent))} {ps : List Parent} (hg : group h stage calls = some ps) :
    (ps.map (·.std)).Nodup ∧ (arguments h ps).Nodup ∧ (∀ x, x ∈ arguments h ps ↔ ∃ e ∈ ps, e.loc = x) := by
  obtain ⟨hk, hn⟩ := group_names ho hg
  have hloc : ∀ e ∈ ps, ∀ e' ∈ ps, e.loc = e'.loc → e = e' := by
    obtain ⟨st, hf, hp⟩ := group_some hg
    obtain ⟨j1, _⟩ := calls_ok ho calls (inv_start h) hf
    rcases hp with hp | ⟨_, _, c, hc, rfl⟩
    · rw [← hp]
      intro e he e' he' hl
      have a := j1.names e he
      have b := j1.names e' he'
      rw [hl] at a
      exact entry_unique j1.keys he he' (Option.some.inj (a.2.symm.trans b.2))
    · intro e he e' he' _
      rw [List.mem_singleton.1 he, List.mem_singleton.1 he']
  have hps : ps.Nodup := by
    have := hk
    exact List.Nodup.of_map _ this
  refine ⟨hk, ?_, ?_⟩
  · unfold arguments
    rw [← List.map_append]
    refine (List.nodup_map_iff_inj_on ?_).2 ?_
    · rw [List.nodup_append]
      refine ⟨hps.filter _, hps.filter _, ?_⟩
      intro a ha b hb hab
      subst hab
      have h1 := (List.mem_filter.1 ha).2
      have h2 := (List.mem_filter.1 hb).2
      rw [h2] at h1
      cases h1
    · intro a ha b hb hl
      have : ∀ y, y ∈ (ps.filter fun e => !isArray h e) ++ ps.filter (isArray h) → y ∈ ps := by
        intro y hy
        rcases List.mem_append.1 hy with hy | hy <;> exact (List.mem_filter.1 hy).1
      exact hloc a (this a ha) b (this b hb) hl
  · intro x
    unfold arguments
    rw [List.mem_append, List.mem_map, List.mem_map]
    constructor
    · rintro (⟨e, he, rfl⟩ | ⟨e, he, rfl⟩) <;> exact ⟨e, (List.mem_filter.1 he).1, rfl⟩
    · rintro ⟨e, he, rfl⟩
      cases hb : isArray h e with
      | true => exact Or.inr ⟨e, List.mem_filter.2 ⟨he, hb⟩, rfl⟩
      | false => exact Or.inl ⟨e, List.mem_filter.2 ⟨he, by simp [hb]⟩, rfl⟩

/-- **C74**  The scalars come before the arrays. -/
theorem C74_scalars (h : List HVar) (ho : HostOk h) (ps : List Parent) : ∃ a b : List Parent, arguments h ps = a.map (·.loc) ++ b.map (·.loc) ∧
    (∀ e ∈ a, ∀ v ∈ h, v.std = e.std → v.dims = []) ∧ ∀ e ∈ b, ∃ v ∈ h, v.std = e.std ∧ v.dims ≠ [] := by
  refine ⟨_, _, rfl, ?_, ?_⟩
  · intro e he v hv hs
    have := (List.mem_filter.1 he).2
    simp only [isArray, ← hs, find_of_mem ho.unique hv] at this
    simpa using this
  · intro e he
    have := (List.mem_filter.1 he).2
    unfold isArray at this
    cases hf : find h e.std with
    | none => rw [hf] at this; cases this
    | some v =>
      rw [hf] at this
      exact ⟨v, (find_mem hf).1, (find_mem hf).2, by simpa using this⟩

/-- **C74**  The cap can write, and read, the instance of the type of CCPP if the two error variables are components of it: the loop counters are
components that the cap itself sets. -/
theorem C74_instance_partial {h : List HVar} (ho : HostOk h) {stage : SA.Stage} {calls : List (List (Str × Intent))} {ps : List Parent}
    (hg : group h stage calls = some ps) {c : List (Str × Intent)} (hc : c ∈ calls) (hn : (c.map (·.1)).Nodup) {v w : HVar} {i j : Intent} (hv : (v.std, i) ∈ c) (hw : (w.std, j) ∈ c)
    (hvh : v ∈ h) (hwh : w ∈ h) (hne : v.std ≠ w.std) (hi : Writes i) {x : Str} (hrv : Root v.loc x) (hrw : Root w.loc x) : Declares h ps x .inout := by
  obtain ⟨v', hvh', hs', hcov, _⟩ := C74_arguments ho hg hc hn hv
  have : v' = v := by
    have a := find_of_mem ho.unique hvh
    have b := find_of_mem ho.unique hvh'
    rw [hs', a] at b
    exact (Option.some.inj b).symm
  subst this
  obtain ⟨k, ⟨e, he, hl, hr, rfl⟩, hk⟩ := hcov x hrv
  obtain ⟨k', ⟨e', he', hl', _, rfl⟩, hk'⟩ := C74_shared ho hg hc hc hv hw hvh hwh hne hrv hrw
  obtain ⟨st, hf, hp⟩ := group_some hg
  obtain ⟨j1, _, _, j4, _⟩ := calls_ok ho calls (inv_start h) hf
  obtain ⟨_, _, _, _, _, e0, he0, _⟩ := j4 c hc v'.std (List.mem_map.2 ⟨_, hv, rfl⟩)
  have hps := group_parents (calls := calls) hp he0
  rw [hps] at j1
  have a := j1.names e he
  have b := j1.names e' he'
  rw [hl] at a
  rw [hl'] at b
  have : e = e' := entry_unique j1.keys he he' (Option.some.inj (a.2.symm.trans b.2))
  subst this
  refine ⟨e, he, hl, hr, ?_⟩
  have h1 := hk.2 hi
  rcases h1 with h1 | h1
  · rcases hk' with h2 | h2
    · rw [h1] at h2; cases h2
    · exact h2
  · exact h1

/-- **C74**  If no two variables of the host have the same local name, the argument of a cap that has the name of a variable is this variable. -/
theorem C74_variable_partial {h : List HVar} (hd : Distinct h) {x p : Str} (hr : Registered h x p) {v : HVar} (hv : v ∈ h) (hw : Whole x v.loc) : v.std = p := by
  obtain ⟨u, hu, hup, hux⟩ := hr
  exact (hd v hv u hu x hw hux).trans hup

/-! ## Suites -/

/-- One entry of a group is merged -/
def merge1 (ps : List Parent) (e : Parent) : List Parent :=
  setParent e.std e.loc (mergeIntent e.intent) ps

theorem suite_flat (gs : List (List Parent)) : suite gs = gs.flatten.foldl merge1 [] := by
  unfold suite
  suffices ∀ ps, gs.foldl mergeGroup ps = gs.flatten.foldl merge1 ps from this []
  induction gs with
  | nil => intro ps; rfl
  | cons g gs ih =>
    intro ps
    rw [List.foldl_cons, ih, List.flatten_cons, List.foldl_append]
    rfl

/-- What is known after some entries -/
structure Merged (L ps : List Parent) : Prop where
  keys : (ps.map (·.std)).Nodup
  covers : ∀ e ∈ L, ∃ e' ∈ ps, e'.std = e.std ∧ Covers e'.intent e.intent
  from' : ∀ e' ∈ ps, ∃ e ∈ L, e.std = e'.std ∧ e.loc = e'.loc
  writes : ∀ e' ∈ ps, e'.intent ≠ .in → ∃ e ∈ L, e.std = e'.std ∧ e.intent ≠ .in

theorem merge1_ok {L ps : List Parent} (hm : Merged L ps) (e : Parent) : Merged (L ++ [e]) (merge1 ps e) := by
  have hf : ∀ o, Up o (mergeIntent e.intent (some o)) := fun o => rule2_up _ o
  have hle := setParent_le (p := e.std) (n := e.loc) hm.keys hf
  refine ⟨setParent_nodup hm.keys, ?_, ?_, ?_⟩
  · intro a ha
    rcases List.mem_append.1 ha with ha | ha
    · obtain ⟨a', ha', hs, hc⟩ := hm.covers a ha
      obtain ⟨a2, ha2, s2, _, u2⟩ := hle a' ha'
      exact ⟨a2, ha2, s2.trans hs, u2.covers hc⟩
    · rw [List.mem_singleton.1 ha]
      by_cases hex : ∃ b ∈ ps, b.std = e.std
      · obtain ⟨b, hb, hbs⟩ := hex
        exact ⟨{ b with intent := rule2 e.intent b.intent }, (mem_setParent hm.keys _).2 (Or.inr (Or.inl ⟨b, hb, hbs, rfl⟩)), hbs, rule2_covers _ _⟩
      · exact ⟨⟨e.std, e.loc, e.intent⟩, (mem_setParent hm.keys _).2 (Or.inr (Or.inr ⟨fun b hb hbs => hex ⟨b, hb, hbs⟩, rfl⟩)), rfl, covers_refl _⟩
  · intro a ha
    rcases setParent_old hm.keys hf ha with ⟨b, hb, s, l, _, _⟩ | ⟨_, rfl⟩
    · obtain ⟨c, hc, h1, h2⟩ := hm.from' b hb
      exact ⟨c, List.mem_append_left _ hc, h1.trans s.symm, h2.trans l.symm⟩
    · exact ⟨e, by simp, rfl, rfl⟩
  · intro a ha hne
    rcases setParent_old hm.keys hf ha with ⟨b, hb, s, l, _, hint⟩ | ⟨_, rfl⟩
    · rcases hint with hint | ⟨hbs, hint⟩
      · obtain ⟨c, hc, h1, h2⟩ := hm.writes b hb (hint ▸ hne)
        exact ⟨c, List.mem_append_left _ hc, h1.trans s.symm, h2⟩
      · rw [hint] at hne
        rcases rule2_in hne with hb' | he
        · obtain ⟨c, hc, h1, h2⟩ := hm.writes b hb hb'
          exact ⟨c, List.mem_append_left _ hc, h1.trans s.symm, h2⟩
        · exact ⟨e, by simp, hbs.symm.trans s.symm, he⟩
    · exact ⟨e, by simp, rfl, hne⟩

theorem merged_ok (gs : List (List Parent)) : Merged gs.flatten (suite gs) := by
  rw [suite_flat]
  suffices ∀ (M L ps : List Parent), Merged L ps → Merged (L ++ M) (M.foldl merge1 ps) by
    have := this gs.flatten [] [] ⟨List.nodup_nil, (fun _ h => nomatch h), (fun _ h => nomatch h), (fun _ h => nomatch h)⟩
    simpa using this
  intro M
  induction M with
  | nil => intro L ps h; simpa using h
  | cons e M ih =>
    intro L ps h
    have := ih (L ++ [e]) (merge1 ps e) (merge1_ok h e)
    simpa using this

/-- **C74**  The cap of the suite declares everything that the caps of its groups need, with intents that allow what the groups do, and
it can write only what a group writes. -/
theorem C74_suite {h : List HVar} (ho : HostOk h) {stage : SA.Stage} {gs : List (List Parent)} (hgs : ∀ g ∈ gs, ∃ calls, group h stage calls = some g)
    (ht : ∀ v ∈ h, v.std = "ccpp_t_instance".toList → IsName v.loc) :
    ((suite gs).map (·.std)).Nodup ∧
    (∀ g ∈ gs, ∀ x k, Declares h g x k → ∃ k', Declares h (suite gs) x k' ∧ Covers k' k) ∧
    (∀ x k, Declares h (suite gs) x k → (∃ g ∈ gs, ∃ k', Declares h g x k') ∧ (Writes k → ∃ g ∈ gs, ∃ k', Declares h g x k' ∧ Writes k')) := by
  have hm := merged_ok gs
  -- the same variable has the same name in all groups
  have hall : ∀ e ∈ gs.flatten, IsName e.loc ∧ Registered h e.loc e.std := by
    intro e he
    obtain ⟨g, hg, heg⟩ := List.mem_flatten.1 he
    obtain ⟨calls, hc⟩ := hgs g hg
    rcases (group_names ho hc).2 e heg with ⟨h1, h2⟩ | ⟨c, hc, h1, h2⟩
    · exact ⟨h1, findParent_some h2⟩
    · have := find_mem hc
      rw [h1, h2]
      exact ⟨ht c this.1 this.2, ⟨c, this.1, rfl, Or.inl rfl⟩⟩
  have hcons : ∀ a ∈ gs.flatten, ∀ b ∈ gs.flatten, a.std = b.std → a.loc = b.loc := by
    intro a ha b hb hab
    obtain ⟨na, u, hu, hua, hux⟩ := hall a ha
    obtain ⟨nb, w, hw, hwa, hwx⟩ := hall b hb
    have : u = w := by
      have x := find_of_mem ho.unique hu
      have y := find_of_mem ho.unique hw
      rw [hua, hab] at x
      rw [hwa] at y
      exact Option.some.inj (x.symm.trans y)
    subst this
    rw [← whole_name na hux, ← whole_name nb hwx]
  refine ⟨hm.keys, ?_, ?_⟩
  · rintro g hg x k ⟨e, he, hl, hr, rfl⟩
    have hef : e ∈ gs.flatten := List.mem_flatten.2 ⟨g, hg, he⟩
    obtain ⟨e', he', hs, hc⟩ := hm.covers e hef
    obtain ⟨e0, he0, hs0, hl0⟩ := hm.from' e' he'
    refine ⟨e'.intent, ⟨e', he', ?_, by rw [hs]; exact hr, rfl⟩, hc⟩
    rw [← hl0, ← hl]
    exact hcons e0 he0 e hef (hs0.trans hs)
  · rintro x k ⟨e', he', hl, hr, rfl⟩
    obtain ⟨e0, he0, hs0, hl0⟩ := hm.from' e' he'
    constructor
    · obtain ⟨g, hg, heg⟩ := List.mem_flatten.1 he0
      exact ⟨g, hg, e0.intent, e0, heg, hl0.trans hl, by rw [hs0]; exact hr, rfl⟩
    · intro hw
      obtain ⟨e1, he1, hs1, hne⟩ := hm.writes e' he' (by rcases hw with hw | hw <;> rw [hw] <;> decide)
      obtain ⟨g, hg, heg⟩ := List.mem_flatten.1 he1
      refine ⟨g, hg, e1.intent, ⟨e1, heg, ?_, by rw [hs1]; exact hr, rfl⟩, ?_⟩
      · rw [hcons e1 he1 e0 he0 (hs1.trans hs0.symm)]; exact hl0.trans hl
      · cases hi : e1.intent with
        | «in» => exact absurd hi hne
        | out => exact Or.inl rfl
        | inout => exact Or.inr rfl

/-! ## Examples -/

/-- A variable -/
def hvar (s l : String) (d : List String) (c : List String) : HVar := ⟨s.toList, l.toList, d.map (·.toList), c.map (·.toList)⟩

/-- A test for names -/
def nameB : Str → Bool
  | [] => false
  | c :: r => c.isAlpha && (c :: r).all fun c => c.isAlphanum || c == '_'

theorem nameB_ok {s : Str} (h : nameB s = true) : IsName s := by
  cases s with
  | nil => cases h
  | cons c r =>
    simp only [nameB, Bool.and_eq_true] at h
    refine ⟨⟨c, r, rfl, h.1⟩, fun d hd => ?_⟩
    have := List.all_eq_true.1 h.2 d hd
    simpa using this

theorem ref_name {s : Str} (h : nameB s = true) : IsRef s := .name (nameB_ok h)
theorem ref_index {x i : Str} (hx : nameB x = true) (hi : IsRef i) : IsRef (x ++ '(' :: (i ++ [')'])) :=
  .index (is := [[i]]) (nameB_ok hx) (by simp) (by simp) (by simpa using IsBound.ref hi)

/-- A host -/
def hostX : List HVar := [hvar "ccpp_t_instance" "cdata" [] [], hvar "ccpp_error_code" "cdata%errflg" [] [], hvar "ccpp_error_message" "cdata%errmsg" [] [],
  hvar "ccpp_constant_one" "one" [] [], hvar "horizontal_loop_extent" "ncols" [] [], hvar "vertical_dimension" "nlev" [] [],
  hvar "number_of_blocks" "nblks" [] [], hvar "physics_state" "phys(:)" ["number_of_blocks"] [], hvar "flag_x" "do_x" [] [],
  hvar "air_temperature" "phys(cdata%blk_no)%t" ["ccpp_constant_one:horizontal_loop_extent", "vertical_dimension"] ["flag_x"]]

/-- A call -/
def callX : List (Str × Intent) := [("air_temperature".toList, .inout), ("ccpp_error_code".toList, .out), ("ccpp_error_message".toList, .out)]

theorem ref_colon {x : Str} (hx : nameB x = true) : IsRef (x ++ "(:)".toList) :=
  .index (is := [[[], []]]) (nameB_ok hx) (by simp) (by simp) (by simpa using IsBound.empty)

theorem hostX_ok : HostOk hostX := by
  refine ⟨by decide +kernel, ?_⟩
  intro v hv
  simp only [hostX, List.mem_cons, List.not_mem_nil, or_false] at hv
  rcases hv with rfl | rfl | rfl | rfl | rfl | rfl | rfl | rfl | rfl | rfl
  · exact ref_name (by decide)
  · exact IsRef.member (a := "cdata".toList) (b := "errflg".toList) (ref_name (by decide)) (ref_name (by decide))
  · exact IsRef.member (a := "cdata".toList) (b := "errmsg".toList) (ref_name (by decide)) (ref_name (by decide))
  · exact ref_name (by decide)
  · exact ref_name (by decide)
  · exact ref_name (by decide)
  · exact ref_name (by decide)
  · exact ref_colon (x := "phys".toList) (by decide)
  · exact ref_name (by decide)
  · exact IsRef.member (a := "phys(cdata%blk_no)".toList) (b := "t".toList)
      (ref_index (x := "phys".toList) (i := "cdata%blk_no".toList) (by decide)
        (IsRef.member (a := "cdata".toList) (b := "blk_no".toList) (ref_name (by decide)) (ref_name (by decide)))) (ref_name (by decide))

/-- The arguments of the cap: the parent of the temperature is written, the bounds and the condition are read -/
example : group hostX .run [callX] = some [⟨"ccpp_constant_one".toList, "one".toList, .in⟩, ⟨"horizontal_loop_extent".toList, "ncols".toList, .in⟩,
    ⟨"vertical_dimension".toList, "nlev".toList, .in⟩, ⟨"flag_x".toList, "do_x".toList, .in⟩, ⟨"physics_state".toList, "phys".toList, .inout⟩,
    ⟨"ccpp_t_instance".toList, "cdata".toList, .inout⟩, ⟨"number_of_blocks".toList, "nblks".toList, .in⟩] := by decide +kernel

example : (group hostX .run [callX]).map (arguments hostX) = some (["one", "ncols", "nlev", "do_x", "cdata", "nblks", "phys"].map (·.toList)) := by decide +kernel

example : extract "Atm(mytile)%q(:,:,:,Atm2(mytile2)%graupel)".toList = some ("Atm".toList, ["mytile".toList, "mytile2".toList, "Atm2".toList]) := by decide +kernel

example : IsRef "Atm(mytile)%q(:,:,:,Atm2(mytile2)%graupel)".toList :=
  IsRef.member (a := "Atm(mytile)".toList) (b := "q(:,:,:,Atm2(mytile2)%graupel)".toList)
    (ref_index (x := "Atm".toList) (i := "mytile".toList) (by decide) (ref_name (by decide)))
    (IsRef.index (x := "q".toList) (is := [[[], []], [[], []], [[], []], ["Atm2(mytile2)%graupel".toList]]) (nameB_ok (by decide)) (by simp) (by simp) (by
      intro bs hbs b hb
      simp only [List.mem_cons, List.not_mem_nil, or_false] at hbs
      rcases hbs with rfl | rfl | rfl | rfl
      · simp only [List.mem_cons, List.not_mem_nil, or_false, or_self] at hb; rw [hb]; exact IsBound.empty
      · simp only [List.mem_cons, List.not_mem_nil, or_false, or_self] at hb; rw [hb]; exact IsBound.empty
      · simp only [List.mem_cons, List.not_mem_nil, or_false, or_self] at hb; rw [hb]; exact IsBound.empty
      · rw [List.mem_singleton.1 hb]
        exact IsBound.ref (IsRef.member (a := "Atm2(mytile2)".toList) (b := "graupel".toList)
          (ref_index (x := "Atm2".toList) (i := "mytile2".toList) (by decide) (ref_name (by decide))) (ref_name (by decide)))))

theorem hostX_dims : DimsOk hostX := by
  intro v hv e he
  simp only [hostX, List.mem_cons, List.not_mem_nil, or_false] at hv
  rcases hv with rfl | rfl | rfl | rfl | rfl | rfl | rfl | rfl | rfl | rfl <;> try (exact absurd he List.not_mem_nil)
  · simp only [hvar, List.map_cons, List.map_nil, List.mem_singleton] at he
    exact ⟨["number_of_blocks".toList], by simp, he, by
      intro p hp; rw [List.mem_singleton.1 hp]; exact ⟨by decide, Or.inr (nameB_ok (by decide))⟩⟩
  · simp only [hvar, List.map_cons, List.map_nil, List.mem_cons, List.not_mem_nil, or_false] at he
    rcases he with rfl | rfl
    · refine ⟨["ccpp_constant_one".toList, "horizontal_loop_extent".toList], by simp, by decide, ?_⟩
      intro p hp
      simp only [List.mem_cons, List.not_mem_nil, or_false] at hp
      rcases hp with rfl | rfl <;> exact ⟨by decide, Or.inr (nameB_ok (by decide))⟩
    · exact ⟨["vertical_dimension".toList], by simp, rfl, by
        intro p hp; rw [List.mem_singleton.1 hp]; exact ⟨by decide, Or.inr (nameB_ok (by decide))⟩⟩

/-- The dimensions of this host are scalars -/
theorem hostX_flat : FlatDims hostX := by
  have key : ∀ w ∈ hostX, ∀ d ∈ dimNames w.dims, ∀ v ∈ hostX, v.std = d → nameB v.loc = true ∧
      ∀ p ∈ hostX, p.loc.takeWhile plainC = v.loc.takeWhile plainC → p.dims = [] := by decide +kernel
  intro w hw d hd v hv hvs x hx p hp hwh
  obtain ⟨h1, h2⟩ := key w hw d (dimOf_iff hd) v hv hvs
  have hn := nameB_ok h1
  rcases hx with hx | ⟨hxn, u, c, t, he, hc, _⟩
  · exact h2 p hp ((whole_name hx.1 hwh).trans (root_takeWhile hx).symm)
  · exfalso
    have := IsName.plain hn c (by rw [he]; simp)
    simp only [List.mem_cons, List.not_mem_nil, or_false] at hc
    rcases hc with rfl | rfl | rfl <;> exact absurd this (by decide)

/-- What the temperature needs -/
example : Needed hostX .run callX "flag_x".toList :=
  .cond (v := hvar "air_temperature" "phys(cdata%blk_no)%t" ["ccpp_constant_one:horizontal_loop_extent", "vertical_dimension"] ["flag_x"]) (i := .inout)
    (by decide +kernel) (by simp [hostX]) (by decide +kernel)

/-! ## Violations -/

/-- **C74, violated**  An `intent(out)` argument that is the condition of another argument of the same call is declared `intent(out)`, although
the cap reads it before the call. -/
theorem C74_condition_violated : ∃ (h : List HVar) (c : List (Str × Intent)) (ps : List Parent) (d x : Str), HostOk h ∧ group h .run [c] = some ps ∧
    Needed h .run c d ∧ (∃ v ∈ h, v.std = d ∧ Root v.loc x) ∧ Declares h ps x .out ∧ ¬ ∃ k, Declares h ps x k ∧ Reads k := by
  refine ⟨[hvar "flag_x" "do_x" [] [], hvar "temp" "t" [] ["flag_x"]], [("flag_x".toList, .out), ("temp".toList, .inout)],
    [⟨"flag_x".toList, "do_x".toList, .out⟩, ⟨"temp".toList, "t".toList, .inout⟩], "flag_x".toList, "do_x".toList, ⟨by decide +kernel, ?_⟩, by decide +kernel, ?_, ?_, ?_, ?_⟩
  · intro v hv
    simp only [List.mem_cons, List.not_mem_nil, or_false] at hv
    rcases hv with rfl | rfl <;> exact ref_name (by decide)
  · exact .cond (v := hvar "temp" "t" [] ["flag_x"]) (i := .inout) (by simp [hvar]) (by simp) (by simp [hvar])
  · exact ⟨_, List.mem_cons_self .., rfl, nameB_ok (by decide), [], rfl, Or.inl rfl⟩
  · exact ⟨_, List.mem_cons_self .., rfl, ⟨_, List.mem_cons_self .., rfl, Or.inl rfl⟩, rfl⟩
  · rintro ⟨k, ⟨e, he, hl, _, rfl⟩, hr⟩
    simp only [List.mem_cons, List.not_mem_nil, or_false] at he
    rcases he with rfl | rfl
    · exact absurd hr (by simp [Reads])
    · exact absurd hl (by decide)

/-- **C74, violated**  A host variable of which a scheme writes one component, `intent(out)`, is declared `intent(out)` as a whole: its other
components become undefined. -/
theorem C74_component_violated : ∃ (h : List HVar) (c : List (Str × Intent)) (ps : List Parent) (x : Str) (v w : HVar), HostOk h ∧ group h .run [c] = some ps ∧
    v ∈ h ∧ w ∈ h ∧ v.loc = x ++ "%a".toList ∧ w.loc = x ++ "%b".toList ∧ (w.std ∉ c.map (·.1)) ∧ Declares h ps x .out := by
  refine ⟨[hvar "state" "phys" [] [], hvar "var_a" "phys%a" [] [], hvar "var_b" "phys%b" [] []], [("var_a".toList, .out)],
    [⟨"state".toList, "phys".toList, .out⟩], "phys".toList, hvar "var_a" "phys%a" [] [], hvar "var_b" "phys%b" [] [], ⟨by decide +kernel, ?_⟩, by decide +kernel,
    by simp, by simp, by decide, by decide, by decide, ⟨_, List.mem_cons_self .., rfl, ⟨_, List.mem_cons_self .., rfl, Or.inl rfl⟩, rfl⟩⟩
  intro v hv
  simp only [List.mem_cons, List.not_mem_nil, or_false] at hv
  rcases hv with rfl | rfl | rfl
  · exact ref_name (by decide)
  · exact IsRef.member (a := "phys".toList) (b := "a".toList) (ref_name (by decide)) (ref_name (by decide))
  · exact IsRef.member (a := "phys".toList) (b := "b".toList) (ref_name (by decide)) (ref_name (by decide))

/-- The host of the next theorem -/
def hostB : List HVar := [hvar "var_a" "big(1)%a" [] [], hvar "big_state" "big(:)" ["nb"] [], hvar "nb" "grid(1)%n" [] [], hvar "grid_state" "grid(:)" ["ng"] [], hvar "ng" "ngrids" [] []]

/-- **C74, violated**  A bound of a dummy argument can be undeclared: `grid` is declared with the bound `ngrids`, which is not an argument. -/
theorem C74_bounds_violated : ∃ (h : List HVar) (c : List (Str × Intent)) (ps : List Parent) (e : Parent) (pv dv : HVar) (d x : Str), HostOk h ∧ DimsOk h ∧ group h .run [c] = some ps ∧
    e ∈ ps ∧ pv ∈ h ∧ pv.std = e.std ∧ DimOf pv d ∧ dv ∈ h ∧ dv.std = d ∧ Root dv.loc x ∧ ¬ ∃ k, Declares h ps x k := by
  refine ⟨hostB, [("var_a".toList, .in)], [⟨"big_state".toList, "big".toList, .in⟩, ⟨"grid_state".toList, "grid".toList, .in⟩], ⟨"grid_state".toList, "grid".toList, .in⟩,
    hvar "grid_state" "grid(:)" ["ng"] [], hvar "ng" "ngrids" [] [], "ng".toList, "ngrids".toList, ⟨by decide +kernel, ?_⟩, ?_, by decide +kernel, by simp, by simp [hostB], rfl, ?_, by simp [hostB], rfl, ?_, ?_⟩
  · intro v hv
    simp only [hostB, List.mem_cons, List.not_mem_nil, or_false] at hv
    have hlit : IsBound "1".toList := .literal ⟨[], "1".toList, Or.inl rfl, rfl, by simp, by decide⟩
    rcases hv with rfl | rfl | rfl | rfl | rfl
    · exact IsRef.member (a := "big(1)".toList) (b := "a".toList) (.index (x := "big".toList) (is := [["1".toList]]) (nameB_ok (by decide)) (by simp) (by simp) (by simpa using hlit)) (ref_name (by decide))
    · exact ref_colon (x := "big".toList) (by decide)
    · exact IsRef.member (a := "grid(1)".toList) (b := "n".toList) (.index (x := "grid".toList) (is := [["1".toList]]) (nameB_ok (by decide)) (by simp) (by simp) (by simpa using hlit)) (ref_name (by decide))
    · exact ref_colon (x := "grid".toList) (by decide)
    · exact ref_name (by decide)
  · intro v hv e he
    simp only [hostB, List.mem_cons, List.not_mem_nil, or_false] at hv
    rcases hv with rfl | rfl | rfl | rfl | rfl <;> try (exact absurd he List.not_mem_nil)
    · exact ⟨["nb".toList], by simp, by simpa [hvar, joined] using he, by intro p hp; rw [List.mem_singleton.1 hp]; exact ⟨by decide, Or.inr (nameB_ok (by decide))⟩⟩
    · exact ⟨["ng".toList], by simp, by simpa [hvar, joined] using he, by intro p hp; rw [List.mem_singleton.1 hp]; exact ⟨by decide, Or.inr (nameB_ok (by decide))⟩⟩
  · exact ⟨["ng".toList], by simp, by simp, by simp [hvar, joined], nameB_ok (by decide), "ng".toList, by simp, by decide⟩
  · exact ⟨nameB_ok (by decide), [], rfl, Or.inl rfl⟩
  · rintro ⟨k, e, he, hl, _⟩
    simp only [List.mem_cons, List.not_mem_nil, or_false] at he
    rcases he with rfl | rfl <;> exact absurd hl (by decide)

/-- **C74, violated**  If two variables of the host have the same local name (in different modules), the cap has only one of them, without an error. -/
theorem C74_same_name_violated : ∃ (h : List HVar) (c : List (Str × Intent)) (ps : List Parent) (v : HVar), HostOk h ∧ group h .run [c] = some ps ∧
    v ∈ h ∧ (v.std, Intent.inout) ∈ c ∧ IsName v.loc ∧ v.std ∉ ps.map (·.std) := by
  refine ⟨[hvar "temp_a" "t" [] [], hvar "temp_b" "t" [] []], [("temp_a".toList, .inout)], [⟨"temp_b".toList, "t".toList, .inout⟩], hvar "temp_a" "t" [] [],
    ⟨by decide +kernel, ?_⟩, by decide +kernel, by simp, by simp [hvar], nameB_ok (by decide), by decide⟩
  intro v hv
  simp only [List.mem_cons, List.not_mem_nil, or_false] at hv
  rcases hv with rfl | rfl <;> exact ref_name (by decide)

/-- **C74, violated**  The cap sets the loop counter, but if only this variable is a component of the instance of the type of CCPP the instance is not an
argument of the cap. -/
theorem C74_instance_violated : ∃ (h : List HVar) (c : List (Str × Intent)) (ps : List Parent) (v : HVar) (x : Str), HostOk h ∧ group h .run [c] = some ps ∧ c ≠ [] ∧
    v ∈ h ∧ v.std = "ccpp_loop_counter".toList ∧ Root v.loc x ∧ ¬ ∃ k, Declares h ps x k := by
  refine ⟨[hvar "ccpp_t_instance" "cdata" [] [], hvar "ccpp_loop_counter" "cdata%loop_cnt" [] [], hvar "ccpp_error_code" "errflg" [] []], [("ccpp_error_code".toList, .out)],
    [⟨"ccpp_error_code".toList, "errflg".toList, .out⟩], hvar "ccpp_loop_counter" "cdata%loop_cnt" [] [], "cdata".toList, ⟨by decide +kernel, ?_⟩, by decide +kernel, by simp, by simp, rfl, ?_, ?_⟩
  · intro v hv
    simp only [List.mem_cons, List.not_mem_nil, or_false] at hv
    rcases hv with rfl | rfl | rfl
    · exact ref_name (by decide)
    · exact IsRef.member (a := "cdata".toList) (b := "loop_cnt".toList) (ref_name (by decide)) (ref_name (by decide))
    · exact ref_name (by decide)
  · exact ⟨nameB_ok (by decide), "%loop_cnt".toList, rfl, Or.inr ⟨_, Or.inr rfl⟩⟩
  · rintro ⟨k, e, he, hl, _⟩
    rw [List.mem_singleton.1 he] at hl
    exact absurd hl (by decide)

end Ccpp.PA
