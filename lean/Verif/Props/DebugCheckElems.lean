import Verif.Props.DebugCheckReads
/-! # C83: the elements that are read, the success of the generator, and the internal variables -/
namespace Ccpp.DC
open PB (Str)

variable {ev : Str → (Str → Option Int) → Bool} {c : Ctx} {k : Check} {s : State}

theorem two_elems {l d : Str} {a : Arr} {i j : List Ix} {is js : List Int} (ha : s.arr l = some a)
    (hi : allSome (i.map (Ix.eval s)) = some is) (hj : allSome (j.map (Ix.eval s)) = some js)
    (h1 : element a is = some (a.val is)) (h2 : element a js = some (a.val js))
    (hr : ∀ x ∈ j, ∀ n ∈ x.reads, n ∈ [d] → n = "1".toList) :
    execL s [.elem d l i, .elem d l j] = .cont ((s.set d (a.val is)).set d (a.val js)) := by
  have hsame := same_set [d] s d (a.val is) (by simp)
  have e1 : Basic.exec s (.elem d l i) = .cont (s.set d (a.val is)) := by
    simp only [Basic.exec, ha, hi, h1]; rfl
  have ha2 : (s.set d (a.val is)).arr l = some a := ha
  have e2 : Basic.exec (s.set d (a.val is)) (.elem d l j) = .cont ((s.set d (a.val is)).set d (a.val js)) := by
    simp only [Basic.exec, ha2, ixs_same hsame j hr, hj, h2]; rfl
  simp only [execL, e1, e2]

theorem part_arg {d : Str} {n : Int} (h : Meta c s true d n) (hcol : ':' ∈ d)
    (hlo : VC.isHoriz d = false → ∀ lo hi, d = lo ++ ':' :: hi → ':' ∉ lo → value c s lo = some 1) {p : Part} (hp : dimPart c true d = .ok p) :
    p.lo.eval s = some 1 ∧ p.hi.eval s = some n := by
  cases h with
  | index h1 => exact absurd hcol h1
  | horizontalExtent h1 h2 h3 h4 h5 h6 =>
    obtain ⟨l, h7, h8⟩ := value_inv h6
    simp only [dimPart, h1, not_true_eq_false, if_false, h2, if_true, horizPart, horizNames, h3, h5, Bool.and_self] at hp
    rw [known_ok (look_one c), known_ok h7] at hp
    cases hp
    exact ⟨rfl, ext_val1 h8⟩
  | horizontalLoop h1 h2 h3 h4 h5 h6 =>
    obtain ⟨l, h7, h8⟩ := value_inv h5
    obtain ⟨u, h9, h10⟩ := value_inv h6
    have h4' : c.loopExt = false := by cases hl : c.loopExt <;> simp_all
    simp only [dimPart, h1, not_true_eq_false, if_false, h2, if_true, horizPart, horizNames, h3, h4', Bool.and_false, Bool.false_eq_true] at hp
    rw [known_ok h7, known_ok h9] at hp
    cases hp
    exact ⟨rfl, ext_val h10 h8⟩
  | horizontalAll h1 h2 h3 h4 =>
    obtain ⟨u, h9, h10⟩ := value_inv h4
    simp only [dimPart, h1, not_true_eq_false, if_false, h2, if_true, horizPart, horizNames, h3, Bool.false_eq_true] at hp
    rw [known_ok (look_one c), known_ok h9] at hp
    cases hp
    exact ⟨rfl, ext_val1 h10⟩
  | @range lo hi l h h1 h2 h3 h4 h5 =>
    obtain ⟨ln, h7, h8⟩ := value_inv h4
    obtain ⟨un, h9, h10⟩ := value_inv h5
    have h11 := hlo h3 lo hi rfl h1
    rw [h4] at h11
    cases h11
    simp only [dimPart, hcol, not_true_eq_false, if_false, h3, Bool.false_eq_true, splitColon_two lo hi h1 h2, known_ok h7, known_ok h9] at hp
    cases hp
    refine ⟨h8, ?_⟩
    simp only [Ix.eval, h10]
    congr 1
    omega

theorem parts_arg : ∀ {ds : List Str} {ns : List Int}, List.Forall₂ (Meta c s true) ds ns → (∀ d ∈ ds, ':' ∈ d) →
    (∀ d ∈ ds, VC.isHoriz d = false → ∀ lo hi, d = lo ++ ':' :: hi → ':' ∉ lo → value c s lo = some 1) → ∀ {ps : List Part},
    dimParts c true ds = .ok ps →
    allSome ((ps.map Part.lo).map (Ix.eval s)) = some (ns.map fun _ => 1) ∧ allSome ((ps.map Part.hi).map (Ix.eval s)) = some ns := by
  intro ds ns h
  induction h with
  | nil => intro _ _ ps hp; cases hp; exact ⟨rfl, rfl⟩
  | @cons d n ds ns h1 h2 ih =>
    intro hc hl ps hp
    simp only [dimParts] at hp
    cases e1 : dimPart c true d with
    | error e => rw [e1] at hp; cases hp
    | ok p =>
      cases e2 : dimParts c true ds with
      | error e => rw [e1, e2] at hp; cases hp
      | ok qs =>
        rw [e1, e2] at hp
        cases hp
        obtain ⟨i1, i2⟩ := ih (fun x hx => hc x (by simp [hx])) (fun x hx => hl x (by simp [hx])) e2
        obtain ⟨j1, j2⟩ := part_arg h1 (hc d (by simp)) (hl d (by simp)) e1
        constructor
        · simp only [List.map_cons, allSome, j1, i1, Option.map_some]
        · simp only [List.map_cons, allSome, j2, i2, Option.map_some]

theorem element_in {a : Arr} {is : List Int} (hl : is.length = a.bounds.length)
    (h : ∀ p ∈ is.zip a.bounds, p.2.1 ≤ p.1 ∧ p.1 ≤ p.2.2) : element a is = some (a.val is) := by
  unfold element; rw [if_pos ⟨hl, h⟩]

theorem zip_map_bounds (f : Int → Int) : ∀ (ns : List Int), ∀ p ∈ (ns.map f).zip (ns.map fun n => ((1 : Int), n)), ∃ n ∈ ns, p = (f n, 1, n) := by
  intro ns
  induction ns with
  | nil => simp
  | cons n ns ih =>
    intro p hp
    simp only [List.map_cons, List.zip_cons_cons, List.mem_cons] at hp
    rcases hp with rfl | hp
    · exact ⟨n, by simp, rfl⟩
    · obtain ⟨m, hm, e⟩ := ih p hp
      exact ⟨m, by simp [hm], e⟩

theorem extent_one {n : Int} (h : 1 ≤ n) : extent (1, n) = n := by simp only [extent]; omega

/-- C83, arguments of the group. If the array has, in every dimension, as many elements as the metadata say and at least one, and the lower bounds in
the metadata are 1 (apart from horizontal dimensions), then the debug code refers to no element outside of the array, returns no error, and reads
exactly the first and the last element. -/
theorem C83_reads_argument {l intent : Str} {a : Arr} {ns : List Int} {gs : List Guarded} (hcall : Dict.find c.call k.std = some l)
    (hi : c.intents.lookup k.std = some intent) (hno : ¬ (intent = "out".toList ∧ k.allocatable = true))
    (hact : Active ev c s k.active) (hd : k.dims ≠ []) (hcol : ∀ d ∈ k.dims, ':' ∈ d)
    (hm : List.Forall₂ (Meta c s true) k.dims ns)
    (hlo : ∀ d ∈ k.dims, VC.isHoriz d = false → ∀ lo hi, d = lo ++ ':' :: hi → ':' ∉ lo → value c s lo = some 1)
    (ha : s.arr l = some a) (hb : a.bounds = ns.map fun n => (1, n)) (hpos : ∀ n ∈ ns, 1 ≤ n)
    (hg : emit c k = .ok gs) (hr : ReadsNone [k.ivar] gs) :
    execG ev s gs = .cont (if intent = "out".toList then s else (s.set k.ivar (a.val (ns.map fun _ => 1))).set k.ivar (a.val ns)) := by
  obtain ⟨t, xs, hc, hact⟩ := hact
  obtain ⟨ps, hp, he, hl, hs⟩ := parts_meta hm
  have hlen : k.dims.length = ns.length := hm.length_eq
  have hsub : ∀ x ∈ ps.map Part.sub, x = .all := by
    intro x hx
    obtain ⟨p, hp, rfl⟩ := List.mem_map.mp hx
    exact hs rfl hcol p hp
  have hsec : sectionSize s a (ps.map Part.sub) = some (total a) := by
    refine section_all s a _ hsub (by simp [hl, hb, hlen]) ?_
    intro e
    have : ps.length = 0 := by simpa using congrArg List.length e
    rw [hl] at this
    exact hd (List.eq_nil_of_length_eq_zero this)
  have htot : total a = ns.prod := by
    unfold total
    rw [hb]
    congr 1
    rw [List.map_map]
    conv_rhs => rw [← List.map_id ns]
    apply List.map_congr_left
    intro n hn
    exact extent_one (hpos n hn)
  have hem := emit_array (target_arg hcall) hi hno hc hd hp
  rw [hg] at hem
  cases hem
  rw [array_pass hact ha hsec (by rw [lens_map]; exact he) htot]
  split
  · rename_i ho; rfl
  · rename_i ho
    obtain ⟨e1, e2⟩ := parts_arg hm hcol hlo hp
    have hr2 : ∀ x ∈ ps.map Part.hi, ∀ n ∈ x.reads, n ∈ [k.ivar] → n = "1".toList := by
      intro x hx n hn
      refine hr ⟨guardOf t, [.elem k.ivar l (ps.map Part.lo), .elem k.ivar l (ps.map Part.hi)]⟩ ?_ (.elem k.ivar l (ps.map Part.hi)) ?_ n ?_
      · unfold arrayCode; rw [if_neg ho]; simp
      · simp
      · exact List.mem_flatMap.mpr ⟨x, hx, hn⟩
    simp only [execG, guardOf_exec hact]
    rw [two_elems ha e1 e2 ?_ ?_ hr2]
    · refine element_in (by simp [hb]) ?_
      intro p hp
      rw [hb] at hp
      obtain ⟨n, hn, rfl⟩ := zip_map_bounds (fun _ => 1) ns p hp
      exact ⟨le_refl _, hpos n hn⟩
    · refine element_in (by simp [hb]) ?_
      intro p hp
      rw [hb] at hp
      have hp' : p ∈ (ns.map id).zip (ns.map fun n => ((1 : Int), n)) := by rw [List.map_id]; exact hp
      obtain ⟨n, hn, rfl⟩ := zip_map_bounds id ns p hp'
      exact ⟨hpos n hn, le_refl _⟩

theorem part_inside {d : Str} {b : Int × Int} {i j : Int} (h : Inside c s d b i j) :
    ∃ p, dimPart c false d = .ok p ∧ p.len.eval s = some (j - i + 1) ∧ p.sub.size s b = some (j - i + 1) ∧ p.sub.isSlice = true ∧
      p.lo.eval s = some i ∧ p.hi.eval s = some j ∧ b.1 ≤ i ∧ i ≤ j ∧ j ≤ b.2 := by
  cases h with
  | @range lo hi _ _ h3 h4 h5 h6 h7 h8 =>
    obtain ⟨ln, h9, h10⟩ := value_inv h6
    obtain ⟨un, h11, h12⟩ := value_inv h7
    refine ⟨⟨.ext un ln, .all, .nm ln, .nm un⟩, ?_, ext_val h12 h10, ?_, rfl, h10, h12, le_refl _, h8, le_refl _⟩
    · simp [dimPart, h5, splitColon_two lo hi h3 h4, known_ok h9, known_ok h11, Except.bind]
    · simp only [Sub.size, extent]; congr 1; omega
  | loop h1 h2 h3 h4 h5 h6 h7 h8 =>
    obtain ⟨ln, h9, h10⟩ := value_inv h4
    obtain ⟨un, h11, h12⟩ := value_inv h5
    refine ⟨⟨.ext un ln, .rng ln un, .nm ln, .nm un⟩, ?_, ext_val h12 h10, ?_, rfl, h10, h12, h7, h6, h8⟩
    · simp only [dimPart, h1, not_true_eq_false, if_false, h2, if_true, horizPart, horizNames, h3, Bool.false_and, Bool.false_eq_true]
      rw [known_ok h9, known_ok h11]; rfl
    · simp only [Sub.size, h10, h12, Option.bind_some]
      rw [if_neg (by omega), if_pos ⟨h7, h8⟩]
  | all h1 h2 h3 h4 h5 h6 h7 =>
    obtain ⟨un, h11, h12⟩ := value_inv h4
    refine ⟨⟨.ext un "1".toList, .rng "1".toList un, .nm "1".toList, .nm un⟩, ?_, ext_val h12 (num_one s), ?_, rfl, num_one s, h12, h6, h5, h7⟩
    · simp only [dimPart, h1, not_true_eq_false, if_false, h2, if_true, horizPart, horizNames, h3, Bool.false_eq_true]
      rw [known_ok (look_one c), known_ok h11]; rfl
    · simp only [Sub.size, num_one, h12, Option.bind_some]
      rw [if_neg (by omega), if_pos ⟨h6, h7⟩]

theorem parts_inside : ∀ (ds : List Str) (bs : List (Int × Int)) (ijs : List (Int × Int)), bs.length = ds.length →
    List.Forall₂ (fun p q => Inside c s p.1 p.2 q.1 q.2) (ds.zip bs) ijs →
    ∃ ps, dimParts c false ds = .ok ps ∧ ps.length = ds.length ∧ ijs.length = bs.length ∧
      allSome (ps.map (fun p => p.len.eval s)) = some (ijs.map fun q => q.2 - q.1 + 1) ∧
      allSome (((ps.map Part.sub).zip bs).map fun p => p.1.size s p.2) = some (ijs.map fun q => q.2 - q.1 + 1) ∧
      (∀ p ∈ ps, p.sub.isSlice = true) ∧ allSome ((ps.map Part.lo).map (Ix.eval s)) = some (ijs.map Prod.fst) ∧
      allSome ((ps.map Part.hi).map (Ix.eval s)) = some (ijs.map Prod.snd) ∧
      (∀ p ∈ (ijs.map Prod.fst).zip bs, p.2.1 ≤ p.1 ∧ p.1 ≤ p.2.2) ∧ (∀ p ∈ (ijs.map Prod.snd).zip bs, p.2.1 ≤ p.1 ∧ p.1 ≤ p.2.2) := by
  intro ds
  induction ds with
  | nil =>
    intro bs ijs hl h
    cases bs with
    | nil => cases h; exact ⟨[], rfl, rfl, rfl, rfl, rfl, by simp, rfl, rfl, by simp, by simp⟩
    | cons b bs => simp at hl
  | cons d ds ih =>
    intro bs ijs hl h
    cases bs with
    | nil => simp at hl
    | cons b bs =>
      simp only [List.zip_cons_cons] at h
      cases h with
      | @cons _ q _ qs h1 h2 =>
        obtain ⟨ps, i1, i2, i3, i4, i5, i6, i7, i8, i9, i10⟩ := ih bs qs (by simpa using hl) h2
        obtain ⟨p, j1, j2, j3, j4, j5, j6, j7, j8, j9⟩ := part_inside h1
        refine ⟨p :: ps, ?_, by simp [i2], by simp [i3], ?_, ?_, ?_, ?_, ?_, ?_, ?_⟩
        · simp [dimParts, j1, i1, Except.bind]
        · simp only [List.map_cons, allSome, j2, i4, Option.map_some]
        · simp only [List.map_cons, List.zip_cons_cons, allSome, j3, i5, Option.map_some]
        · intro x hx
          rcases List.mem_cons.mp hx with rfl | hx
          · exact j4
          · exact i6 x hx
        · simp only [List.map_cons, allSome, j5, i7, Option.map_some]
        · simp only [List.map_cons, allSome, j6, i8, Option.map_some]
        · intro x hx
          simp only [List.map_cons, List.zip_cons_cons, List.mem_cons] at hx
          rcases hx with rfl | hx
          · exact ⟨j7, le_trans j8 j9⟩
          · exact i9 x hx
        · intro x hx
          simp only [List.map_cons, List.zip_cons_cons, List.mem_cons] at hx
          rcases hx with rfl | hx
          · exact ⟨le_trans j7 j8, j9⟩
          · exact i10 x hx

/-- C83, variables of the group or the suite. If the array has the bounds of the metadata (the columns of this call inside the bounds of a horizontal
dimension), the debug code refers to nothing outside of the array, returns no error, and reads exactly the first and the last element of this
call. -/
theorem C83_reads_own {l intent : Str} {a : Arr} {ijs : List (Int × Int)} {gs : List Guarded} (hown : Own c k.std l)
    (hi : c.intents.lookup k.std = some intent) (hno : ¬ (intent = "out".toList ∧ k.allocatable = true))
    (hact : Active ev c s k.active) (hd : k.dims ≠ []) (ha : s.arr l = some a) (hb : a.bounds.length = k.dims.length)
    (hin : List.Forall₂ (fun p q => Inside c s p.1 p.2 q.1 q.2) (k.dims.zip a.bounds) ijs)
    (hg : emit c k = .ok gs) (hr : ReadsNone [k.ivar] gs) :
    execG ev s gs = .cont (if intent = "out".toList then s
      else (s.set k.ivar (a.val (ijs.map Prod.fst))).set k.ivar (a.val (ijs.map Prod.snd))) := by
  obtain ⟨t, xs, hc, hact⟩ := hact
  obtain ⟨ps, hp, hl, hl2, he, hz, hsl, e1, e2, f1, f2⟩ := parts_inside k.dims a.bounds ijs hb hin
  have hany : (ps.map Part.sub).any Sub.isSlice = true := by
    cases hps : ps with
    | nil =>
      rw [hps] at hl
      exact absurd (List.eq_nil_of_length_eq_zero hl.symm) hd
    | cons p q =>
      have := hsl p (by simp [hps])
      simp [this]
  have hsec : sectionSize s a (ps.map Part.sub) = some (ijs.map fun q => q.2 - q.1 + 1).prod := by
    unfold sectionSize
    rw [if_pos ⟨by simp [hl, hb], hany⟩, hz]
    rfl
  have hem := emit_array (target_own hown) hi hno hc hd hp
  rw [hg] at hem
  cases hem
  rw [array_pass hact ha hsec (by rw [lens_map]; exact he) rfl]
  split
  · rfl
  · rename_i ho
    have hr2 : ∀ x ∈ ps.map Part.hi, ∀ n ∈ x.reads, n ∈ [k.ivar] → n = "1".toList := by
      intro x hx n hn
      refine hr ⟨guardOf t, [.elem k.ivar l (ps.map Part.lo), .elem k.ivar l (ps.map Part.hi)]⟩ ?_ (.elem k.ivar l (ps.map Part.hi)) ?_ n ?_
      · unfold arrayCode; rw [if_neg ho]; simp
      · simp
      · exact List.mem_flatMap.mpr ⟨x, hx, hn⟩
    simp only [execG, guardOf_exec hact]
    rw [two_elems ha e1 e2 (element_in (by simp [hl2]) f1) (element_in (by simp [hl2]) f2) hr2]

/-! ### When the generator succeeds -/

theorem known_iff {n : Str} : (∃ l, known c n = .ok l) ↔ Known c n :=
  ⟨fun ⟨l, h⟩ => ⟨l, known_inv h⟩, fun ⟨l, h⟩ => ⟨l, known_ok h⟩⟩

theorem known_one : Known c "ccpp_constant_one".toList := ⟨_, look_one c⟩

theorem bind_ok {α β : Type} {x : Except String α} {f : α → Except String β} {b : β} : x.bind f = .ok b ↔ ∃ a, x = .ok a ∧ f a = .ok b := by
  cases x with
  | error e => simp [Except.bind]
  | ok a => simp [Except.bind]

theorem dimPart_iff {arg : Bool} {d : Str} : (∃ p, dimPart c arg d = .ok p) ↔ Resolvable c arg d := by
  unfold Resolvable
  by_cases h1 : ':' ∈ d
  · by_cases h2 : VC.isHoriz d = true
    · have e : dimPart c arg d = horizPart c arg := by simp only [dimPart, h1, not_true_eq_false, if_false, h2, if_true]
      have key : (∃ p, horizPart c arg = .ok p) ↔ Known c (horizNames c arg).1 ∧ Known c (horizNames c arg).2 := by
        constructor
        · rintro ⟨p, hp⟩
          simp only [horizPart, bind_ok] at hp
          obtain ⟨l, hl, u, hu, _⟩ := hp
          exact ⟨⟨l, known_inv hl⟩, ⟨u, known_inv hu⟩⟩
        · rintro ⟨⟨l, hl⟩, ⟨u, hu⟩⟩
          refine ⟨if arg then ⟨.ext u l, .all, .one, .ext u l⟩ else ⟨.ext u l, .rng l u, .nm l, .nm u⟩, ?_⟩
          simp only [horizPart, known_ok hl, known_ok hu, Except.bind]
          cases arg <;> rfl
      rw [e, key]
      simp only [h1, not_true_eq_false, false_and, h2, true_and, Bool.true_eq_false, false_or, or_false]
      unfold horizNames
      cases hr : c.run <;> cases arg <;> cases hl : c.loopExt <;> simp [known_one]
      all_goals exact fun _ => known_one
    · have h2' : VC.isHoriz d = false := by simpa using h2
      simp only [h1, not_true_eq_false, false_and, h2', true_and, Bool.false_eq_true, false_or]
      constructor
      · rintro ⟨p, hp⟩
        simp only [dimPart, h1, not_true_eq_false, if_false, h2', Bool.false_eq_true] at hp
        split at hp
        · rename_i lo hi hs
          obtain ⟨e1, e2, e3⟩ := splitColon_inv d lo hi hs
          simp only [bind_ok] at hp
          obtain ⟨l, hl, u, hu, _⟩ := hp
          exact ⟨lo, hi, e1, e2, e3, ⟨l, known_inv hl⟩, ⟨u, known_inv hu⟩⟩
        · cases hp
      · rintro ⟨lo, hi, rfl, e2, e3, ⟨l, hl⟩, ⟨u, hu⟩⟩
        refine ⟨⟨.ext u l, .all, .nm l, .nm u⟩, ?_⟩
        simp [dimPart, h2', splitColon_two lo hi e2 e3, known_ok hl, known_ok hu, Except.bind]
  · simp only [h1, not_false_eq_true, true_and, false_and, false_or]
    constructor
    · rintro ⟨p, hp⟩
      simp only [dimPart, h1, not_false_eq_true, if_true, bind_ok] at hp
      obtain ⟨l, hl, _⟩ := hp
      exact Or.inl ⟨l, known_inv hl⟩
    · rintro (⟨l, hl⟩ | ⟨_, lo, hi, rfl, _⟩)
      · exact ⟨⟨.one, .at l, .nm l, .nm l⟩, by simp [dimPart, h1, known_ok hl, Except.bind]⟩
      · simp at h1

theorem dimParts_iff {arg : Bool} {ds : List Str} : (∃ ps, dimParts c arg ds = .ok ps) ↔ ∀ d ∈ ds, Resolvable c arg d := by
  induction ds with
  | nil => simp [dimParts]
  | cons d ds ih =>
    simp only [dimParts, bind_ok, List.mem_cons, forall_eq_or_imp]
    rw [← ih, ← dimPart_iff]
    constructor
    · rintro ⟨_, p, h1, ps, h2, _⟩; exact ⟨⟨p, h1⟩, ⟨ps, h2⟩⟩
    · rintro ⟨⟨p, h1⟩, ⟨ps, h2⟩⟩; exact ⟨_, p, h1, ps, h2, rfl⟩

/-- C83. When the debug code of an array can be written: the group or a suite has the variable, the scheme asks for it, and — unless the scheme
allocates it — its condition can be converted and the group knows all its dimensions. -/
theorem C83_written_iff (hd : k.dims ≠ []) :
    (∃ gs, emit c k = .ok gs) ↔ ∃ l arg intent, (Dict.find c.call k.std = some l ∧ arg = true ∨ Own c k.std l ∧ arg = false) ∧
      c.intents.lookup k.std = some intent ∧
      ((intent = "out".toList ∧ k.allocatable = true) ∨
        (∃ t ns, CD.capgen c.scopes k.active = some (t, ns)) ∧ ∀ d ∈ k.dims, Resolvable c arg d) := by
  have htgt : ∀ l arg, target c k.std = .ok (l, arg) ↔ (Dict.find c.call k.std = some l ∧ arg = true ∨ Own c k.std l ∧ arg = false) := by
    intro l arg
    constructor
    · intro h
      unfold target at h
      cases h1 : Dict.find c.call k.std with
      | some l' => rw [h1] at h; cases h; exact Or.inl ⟨rfl, rfl⟩
      | none =>
        rw [h1] at h
        cases h2 : Dict.find c.group k.std with
        | some l' => rw [h2] at h; cases h; exact Or.inr ⟨⟨h1, Or.inl h2⟩, rfl⟩
        | none =>
          rw [h2] at h
          cases h3 : look c.suites k.std with
          | some l' => rw [h3] at h; cases h; exact Or.inr ⟨⟨h1, Or.inr ⟨h2, h3⟩⟩, rfl⟩
          | none => rw [h3] at h; cases h
    · rintro (⟨h, rfl⟩ | ⟨h, rfl⟩)
      · exact target_arg h
      · exact target_own h
  constructor
  · rintro ⟨gs, h⟩
    unfold emit at h
    obtain ⟨⟨l, arg⟩, h1, h⟩ := bind_ok.mp h
    split at h
    · cases h
    · rename_i intent hi
      refine ⟨l, arg, intent, (htgt l arg).mp h1, hi, ?_⟩
      split at h
      · rename_i ho; exact Or.inl ho
      · split at h
        · cases h
        · rename_i t ns hc
          obtain ⟨ps, hp, _⟩ := bind_ok.mp h
          exact Or.inr ⟨⟨t, ns, hc⟩, dimParts_iff.mp ⟨ps, hp⟩⟩
  · rintro ⟨l, arg, intent, h1, hi, h⟩
    by_cases ho : intent = "out".toList ∧ k.allocatable = true
    · refine ⟨[], ?_⟩
      unfold emit
      rw [(htgt l arg).mpr h1]
      simp only [Except.bind, hi, if_pos ho]
    · rcases h with h | ⟨⟨t, ns, hc⟩, hds⟩
      · exact absurd h ho
      · obtain ⟨ps, hp⟩ := dimParts_iff.mpr hds
        exact ⟨_, emit_array ((htgt l arg).mpr h1) hi ho hc hd hp⟩

end Ccpp.DC
