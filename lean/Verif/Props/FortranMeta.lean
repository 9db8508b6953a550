import Verif.Spec.FortranMeta
/-!
# C61: metadata and Fortran argument lists agree
-/
namespace Ccpp.FM

/-! ## Lookup -/

theorem findVar_none {n : Str} {l : List Arg} : findVar n l = none ↔ ∀ v ∈ l, ¬ Same v.name n := by
  unfold findVar
  cases h : l.findIdx? (fun v => lower v.name == lower n) with
  | none =>
    simp only [true_iff]
    intro v hv hs
    have := List.findIdx?_eq_none_iff.1 h v hv
    unfold Same at hs
    simp [hs] at this
  | some i =>
    obtain ⟨hi, h1, _⟩ := List.findIdx?_eq_some_iff_getElem.1 h
    simp only [List.getElem?_eq_getElem hi, Option.map_some, reduceCtorEq, false_iff]
    exact fun hall => hall _ (List.getElem_mem hi) (by simpa [Same] using h1)

theorem findVar_some {n : Str} {l : List Arg} {i : Nat} {v : Arg} :
    findVar n l = some (i, v) ↔ l[i]? = some v ∧ Same v.name n ∧ ∀ j < i, ∀ w, l[j]? = some w → ¬ Same w.name n := by
  unfold findVar
  constructor
  · cases h : l.findIdx? (fun v => lower v.name == lower n) with
    | none => intro h; cases h
    | some k =>
      obtain ⟨hi, h1, h2⟩ := List.findIdx?_eq_some_iff_getElem.1 h
      simp only [List.getElem?_eq_getElem hi, Option.map_some, Option.some.injEq, Prod.mk.injEq]
      rintro ⟨rfl, rfl⟩
      refine ⟨List.getElem?_eq_getElem hi, by simpa [Same] using h1, ?_⟩
      intro j hj w hw hs
      have := h2 j hj
      rw [List.getElem?_eq_getElem (Nat.lt_trans hj hi)] at hw
      injection hw with hw
      rw [hw] at this
      unfold Same at hs
      simp [hs] at this
  · rintro ⟨h1, h2, h3⟩
    obtain ⟨hi, e⟩ := List.getElem?_eq_some_iff.1 h1
    have : l.findIdx? (fun v => lower v.name == lower n) = some i := by
      rw [List.findIdx?_eq_some_iff_getElem]
      refine ⟨hi, by rw [e]; simpa [Same] using h2, fun j hj => ?_⟩
      have := h3 j hj _ (List.getElem?_eq_getElem (Nat.lt_trans hj hi))
      simpa [Same] using this
    rw [this]
    simp only [h1, Option.map_some]

/-! ## Dimensions -/

theorem dimErrors_nil (n : Str) : ∀ ms fs, dimErrors n ms fs = [] := by
  intro ms
  induction ms with
  | nil => intro fs; simp [dimErrors]
  | cons m ms ih =>
    intro fs
    cases fs with
    | nil => simp [dimErrors]
    | cons f fs =>
      simp only [dimErrors, ih, List.append_nil]
      rw [if_pos (by simp)]

/-- An element that can be translated. -/
def Elem (vars : List Arg) (x : Str) : Prop :=
  Chk.isPyInt (strip x) = true ∨ x = [] ∨ ∃ v ∈ vars, Same v.name x

theorem convertItem_ok {logger : Bool} {vars : List Arg} {x : Str} :
    (∃ y, convertItem logger vars x = .ok y) ↔ Elem vars x := by
  unfold convertItem Elem
  by_cases h1 : Chk.isPyInt (strip x) = true
  · simp [h1]
  · rw [if_neg h1]
    by_cases h2 : x = []
    · simp [h2]
    · rw [if_neg h2]
      cases h : findVar x vars with
      | none =>
        have := findVar_none.1 h
        simp only [reduceCtorEq, exists_false, h1, h2, false_or, false_iff]
        rintro ⟨v, hv, hs⟩
        exact this v hv hs
      | some p =>
        obtain ⟨i, v⟩ := p
        obtain ⟨e1, e2, _⟩ := findVar_some.1 h
        exact ⟨fun _ => Or.inr (Or.inr ⟨v, List.mem_of_getElem? e1, e2⟩), fun _ => ⟨_, rfl⟩⟩

theorem convertItems_ok {logger : Bool} {vars : List Arg} {l : List Str} :
    (∃ y, convertItems logger vars l = .ok y) ↔ ∀ x ∈ l, Elem vars x := by
  induction l with
  | nil => simp [convertItems]
  | cons i l ih =>
    rw [List.forall_mem_cons, ← convertItem_ok (logger := logger), ← ih, convertItems]
    cases convertItem logger vars i with
    | error e => simp
    | ok a => cases convertItems logger vars l <;> simp

theorem convertDims_ok {logger : Bool} {vars : List Arg} {l : List Str} :
    (∃ y, convertDims logger vars l = .ok y) ↔ ∀ d ∈ l, ∀ x ∈ Chk.splitOn ':' d, Elem vars x := by
  induction l with
  | nil => simp [convertDims]
  | cons i l ih =>
    rw [List.forall_mem_cons, ← convertItems_ok (logger := logger), ← ih, convertDims]
    cases convertItems logger vars (Chk.splitOn ':' i) with
    | error e => simp
    | ok a => cases convertDims logger vars l <;> simp

theorem convertDims_length {logger : Bool} {vars : List Arg} : ∀ {l y}, convertDims logger vars l = .ok y →
    y.length = l.length := by
  intro l
  induction l with
  | nil => intro y h; simp only [convertDims, Except.ok.injEq] at h; rw [← h]
  | cons i l ih =>
    intro y h
    rw [convertDims] at h
    cases h1 : convertItems logger vars (Chk.splitOn ':' i) with
    | error e => simp [h1] at h
    | ok a =>
      cases h2 : convertDims logger vars l with
      | error e => simp [h1, h2] at h
      | ok b =>
        simp only [h1, h2, Except.ok.injEq] at h
        rw [← h, List.length_cons, List.length_cons, ih h2]

theorem dimsComp_ok {logger : Bool} {vars : List Arg} {m f : Arg} : dimsComp logger vars m f = .ok [] ↔
    (∃ n, HasRank m n ∧ HasRank f n) ∧ DimsKnown vars f := by
  unfold dimsComp DimsKnown HasRank
  cases hf : f.dims with
  | none => simp
  | some fd =>
    cases hc : convertDims logger vars fd with
    | error e =>
      simp only [hc, reduceCtorEq, false_iff]
      rintro ⟨_, hk⟩
      obtain ⟨y, hy⟩ := (convertDims_ok (logger := logger)).2 (hk fd rfl)
      rw [hc] at hy; cases hy
    | ok fdims =>
      have hl := convertDims_length hc
      have hk : ∀ ds, some fd = some ds → ∀ d ∈ ds, ∀ x ∈ Chk.splitOn ':' d, Elem vars x := by
        intro ds e
        injection e with e
        subst e
        exact (convertDims_ok (logger := logger)).1 ⟨_, hc⟩
      cases hm : m.dims with
      | none => simp [hc]
      | some md =>
        simp only [hc, dimErrors_nil, Except.ok.injEq]
        constructor
        · intro h
          refine ⟨⟨md.length, ⟨md, rfl, rfl⟩, ⟨fd, rfl, ?_⟩⟩, hk⟩
          split at h
          · next e => omega
          · cases h
        · rintro ⟨⟨n, ⟨_, e1, e2⟩, ⟨_, e3, e4⟩⟩, _⟩
          injection e1 with e1
          injection e3 with e3
          subst e1 e3
          rw [if_pos (by omega)]

/-! ## Properties -/

theorem propComp_nil {p : String} {m : Arg} {a b : Option Str} : propComp p m a b = [] ↔ SameOpt a b := by
  unfold propComp SameOpt Same
  cases a <;> cases b <;> simp

theorem compareVar_ok {logger sch : Bool} {vars : List Arg} {m f : Arg} :
    compareVar logger sch vars m f = .ok [] ↔
      Describes m f ∧ (sch = true → SameOpt m.intent f.intent) ∧ DimsKnown vars f := by
  unfold compareVar
  cases hn : propComp "local_name" m (some m.name) (some f.name) with
  | cons e es =>
    simp only [Except.ok.injEq, reduceCtorEq, false_iff]
    rintro ⟨h, _⟩
    rw [propComp_nil.2 (show SameOpt (some m.name) (some f.name) from h.name)] at hn
    cases hn
  | nil =>
    have hname : Same m.name f.name := propComp_nil.1 hn
    cases hd : dimsComp logger vars m f with
    | error e =>
      simp only [reduceCtorEq, false_iff]
      rintro ⟨h, _, hk⟩
      rw [dimsComp_ok.2 ⟨h.rank, hk⟩] at hd
      cases hd
    | ok ds =>
      simp only [Except.ok.injEq, List.append_eq_nil_iff]
      constructor
      · rintro ⟨⟨⟨h1, h2⟩, h3⟩, rfl⟩
        obtain ⟨hr, hk⟩ := dimsComp_ok.1 hd
        refine ⟨⟨hname, propComp_nil.1 h1, propComp_nil.1 h2, hr⟩, fun hs => ?_, hk⟩
        rw [if_pos hs] at h3
        exact propComp_nil.1 h3
      · rintro ⟨h, hi, hk⟩
        refine ⟨⟨⟨propComp_nil.2 (show SameOpt (some m.type) (some f.type) from h.type), propComp_nil.2 h.kind⟩, ?_⟩, ?_⟩
        · split
          · next hs => exact propComp_nil.2 (hi hs)
          · rfl
        · rw [dimsComp_ok.2 ⟨h.rank, hk⟩] at hd
          injection hd with hd
          exact hd.symm

theorem optionalComp_ok {m f : Arg} {i : Nat} : optionalComp m (some (i, f)) = .ok [] ↔
    (f.optional = true → m.optional = true) ∧ (m.optional = true → i = 0 ∨ f.optional = true) := by
  unfold optionalComp
  simp only [Except.ok.injEq, List.append_eq_nil_iff]
  cases m.optional <;> cases f.optional <;> by_cases h : i = 0 <;> simp [h]

theorem checkVar_found {logger : Bool} {mt ft : Table} {flen mind : Nat} {m f : Arg} {i : Nat}
    (hlt : mind < flen) (href : '(' ∉ m.name) (hf : findVar m.name ft.vars = some (i, f))
    (ho : ft.htype = scheme → i = mind) :
    checkVar logger mt ft flen mind m = .ok [] ↔
      optionalComp m (some (i, f)) = .ok [] ∧ compareVar logger (mt.htype == scheme) mt.vars m f = .ok [] := by
  have hr : isArrayRef m.name = false := by unfold isArrayRef; simpa using href
  unfold checkVar
  simp only [hf, hr]
  cases h : optionalComp m (some (i, f)) with
  | error e => simp
  | ok o =>
    simp only [Option.isNone_some, Bool.and_false]
    rw [if_neg (by omega), if_neg (by simp), if_neg (by
      rintro ⟨h1, h2⟩; exact h2 (by rw [ho h1]; rfl)), if_neg (by simp)]
    cases compareVar logger (mt.htype == scheme) mt.vars m f with
    | error e => simp
    | ok es => simp

theorem checkVar_ok {logger : Bool} {mt ft : Table} {flen mind : Nat} {m : Arg}
    (hlt : mind < flen) (href : '(' ∉ m.name) : checkVar logger mt ft flen mind m = .ok [] ↔
      ∃ i f, findVar m.name ft.vars = some (i, f) ∧ (ft.htype = scheme → i = mind) ∧
        optionalComp m (some (i, f)) = .ok [] ∧ compareVar logger (mt.htype == scheme) mt.vars m f = .ok [] := by
  have hr : isArrayRef m.name = false := by unfold isArrayRef; simpa using href
  cases hf : findVar m.name ft.vars with
  | none =>
    simp only [reduceCtorEq, false_and, exists_false, iff_false]
    unfold checkVar
    simp only [hf, hr, Option.isNone_none]
    cases optionalComp m none with
    | error e => simp
    | ok o =>
      simp only
      rw [if_neg (by omega), if_pos (by simp)]
      simp
  | some p =>
    obtain ⟨i, f⟩ := p
    by_cases ho : ft.htype = scheme → i = mind
    · rw [checkVar_found hlt href hf ho]
      constructor
      · exact fun h => ⟨i, f, rfl, ho, h⟩
      · rintro ⟨_, _, e, _, h⟩
        cases e
        exact h
    · constructor
      · intro h
        exfalso
        unfold checkVar at h
        simp only [hf, hr] at h
        cases h' : optionalComp m (some (i, f)) with
        | error e => simp [h'] at h
        | ok o =>
          simp only [h', Option.isNone_some, Bool.and_false] at h
          rw [if_neg (by omega), if_neg (by simp), if_pos (by
            refine ⟨Classical.byContradiction fun hc => ho fun h => absurd h hc, fun e => ho fun _ => ?_⟩
            injection e)] at h
          simp at h
      · rintro ⟨_, _, e, h, _⟩
        cases e
        exact absurd h ho

theorem checkVars_ok {logger : Bool} {mt ft : Table} {flen : Nat} : ∀ (ms : List Arg) (i : Nat),
    checkVars logger mt ft flen i ms = .ok [] ↔
      ∀ j m, ms[j]? = some m → checkVar logger mt ft flen (i + j) m = .ok [] := by
  intro ms
  induction ms with
  | nil => intro i; simp [checkVars]
  | cons m ms ih =>
    intro i
    have key : checkVars logger mt ft flen i (m :: ms) = .ok [] ↔
        checkVar logger mt ft flen i m = .ok [] ∧ checkVars logger mt ft flen (i + 1) ms = .ok [] := by
      rw [checkVars]
      cases checkVar logger mt ft flen i m with
      | error e => simp
      | ok a => cases checkVars logger mt ft flen (i + 1) ms <;> simp
    rw [key, ih]
    constructor
    · rintro ⟨h1, h2⟩ j x hx
      cases j with
      | zero => simp only [List.getElem?_cons_zero, Option.some.injEq] at hx; rw [← hx]; exact h1
      | succ j =>
        rw [List.getElem?_cons_succ] at hx
        have := h2 j x hx
        rwa [show i + 1 + j = i + (j + 1) by omega] at this
    · intro h
      refine ⟨h 0 m rfl, fun j x hx => ?_⟩
      have := h (j + 1) x (by rw [List.getElem?_cons_succ]; exact hx)
      rwa [show i + 1 + j = i + (j + 1) by omega]

theorem compare_ok {logger : Bool} {mt ft : Table} (ht : mt.htype = ft.htype) (hr : NoRefs mt.vars) :
    compare logger mt ft = .ok [] ↔
      (mt.vars.length = neededLen mt ft mt.vars.length ∨
        ft.htype ∈ extraTypes ∧ neededLen mt ft mt.vars.length > mt.vars.length) ∧
      checkVars logger mt ft (neededLen mt ft mt.vars.length) 0 mt.vars = .ok [] := by
  have hm : mt.vars.filter (fun m => !isArrayRef m.name) = mt.vars := by
    rw [List.filter_eq_self]
    intro m hm
    have := hr m hm
    unfold isArrayRef; simpa using this
  unfold compare
  rw [if_neg (by simpa using ht), hm]
  simp only
  cases checkVars logger mt ft (neededLen mt ft mt.vars.length) 0 mt.vars with
  | error e => simp
  | ok es =>
    simp only [Except.ok.injEq, List.append_eq_nil_iff]
    constructor
    · rintro ⟨h, rfl⟩
      split at h
      · next h' => exact ⟨h', rfl⟩
      · cases h
    · rintro ⟨h, rfl⟩
      exact ⟨if_pos h, rfl⟩

/-! ## Schemes -/

theorem Same.symm {a b : Str} (h : Same a b) : Same b a := Eq.symm h
theorem Same.trans {a b c : Str} (h : Same a b) (h' : Same b c) : Same a c := Eq.trans h h'

/-- Accepted argument lists of schemes, exactly. -/
theorem scheme_accepted_iff (logger : Bool) (mt ft : Table) (hm : mt.htype = scheme) (hf : ft.htype = scheme)
    (hr : NoRefs mt.vars) :
    compare logger mt ft = .ok [] ↔
      ∃ front extra, ft.vars = front ++ extra ∧ mt.vars.length = front.length ∧
        (∀ e ∈ extra, e.optional = true ∧ ∀ m ∈ mt.vars, ¬ Same m.name e.name) ∧ DistinctNames front ∧
        ∀ (i : Nat) m f, mt.vars[i]? = some m → front[i]? = some f →
          Describes m f ∧ SameOpt m.intent f.intent ∧ DimsKnown mt.vars f ∧
          (f.optional = true → m.optional = true) ∧ (m.optional = true → i = 0 ∨ f.optional = true) := by
  have hx : ¬ (ft.htype ∈ extraTypes) := by rw [hf]; decide
  rw [compare_ok (hm.trans hf.symm) hr]
  have hs : (mt.htype == scheme) = true := by rw [hm]; exact beq_self_eq_true _
  constructor
  · rintro ⟨h1, h2⟩
    have hlen : mt.vars.length = neededLen mt ft mt.vars.length := by
      rcases h1 with h | ⟨h, _⟩
      · exact h
      · exact absurd h hx
    rw [checkVars_ok] at h2
    -- every metadata variable is found at its own position
    have hfind : ∀ (i : Nat) m, mt.vars[i]? = some m → ∃ f, findVar m.name ft.vars = some (i, f) ∧
        optionalComp m (some (i, f)) = .ok [] ∧ compareVar logger true mt.vars m f = .ok [] := by
      intro i m him
      have hlt : i < mt.vars.length := (List.getElem?_eq_some_iff.1 him).1
      have := h2 i m him
      rw [Nat.zero_add] at this
      obtain ⟨k, f, e1, e2, e3, e4⟩ := (checkVar_ok (by omega) (hr m (List.mem_of_getElem? him))).1 this
      have := e2 hf
      subst this
      rw [hs] at e4
      exact ⟨f, e1, e3, e4⟩
    have hle : mt.vars.length ≤ ft.vars.length := by
      unfold neededLen at hlen; split at hlen <;> omega
    have hfront : ∀ (i : Nat) f, (ft.vars.take mt.vars.length)[i]? = some f → ∃ m, mt.vars[i]? = some m ∧
        findVar m.name ft.vars = some (i, f) := by
      intro i f hif
      obtain ⟨hi, _⟩ := List.getElem?_eq_some_iff.1 hif
      have hi : i < mt.vars.length := by rw [List.length_take] at hi; omega
      obtain ⟨g, hg, _⟩ := hfind i _ (List.getElem?_eq_getElem hi)
      refine ⟨_, List.getElem?_eq_getElem hi, ?_⟩
      rw [hg]
      have := (findVar_some.1 hg).1
      rw [List.getElem?_take_of_lt hi, this] at hif
      injection hif with e
      rw [e]
    refine ⟨ft.vars.take mt.vars.length, ft.vars.drop mt.vars.length, (List.take_append_drop _ _).symm, by
      rw [List.length_take]; omega, ?_, ?_, ?_⟩
    · -- the rest is optional and not in the metadata
      have hcount : (ft.vars.filter fun f => (findVar f.name mt.vars).isNone && f.optional).length =
          (ft.vars.drop mt.vars.length).length := by
        rw [List.length_drop]
        have hfl := List.length_filter_le (fun f => (findVar f.name mt.vars).isNone && f.optional) ft.vars
        unfold neededLen at hlen
        split at hlen
        · omega
        · have he : ft.vars.length = mt.vars.length := by omega
          rw [he, Nat.sub_self]
          rw [List.length_eq_zero_iff, List.filter_eq_nil_iff]
          intro f hfm
          obtain ⟨i, hi, e⟩ := List.getElem_of_mem hfm
          have : (ft.vars.take mt.vars.length)[i]? = some f := by
            rw [List.take_of_length_le (by omega), List.getElem?_eq_getElem hi, e]
          obtain ⟨m, hm1, hm2⟩ := hfront i f this
          have : (findVar f.name mt.vars).isNone = false := by
            rw [Option.isNone_eq_false_iff, Option.isSome_iff_ne_none]
            intro hn
            exact findVar_none.1 hn m (List.mem_of_getElem? hm1) (findVar_some.1 hm2).2.1.symm
          simp [this]
      have hsplit := List.take_append_drop mt.vars.length ft.vars
      have hnil : (ft.vars.take mt.vars.length).filter (fun f => (findVar f.name mt.vars).isNone && f.optional) = [] := by
        rw [List.filter_eq_nil_iff]
        intro f hfm
        obtain ⟨i, hi, e⟩ := List.getElem_of_mem hfm
        obtain ⟨m, hm1, hm2⟩ := hfront i f (by rw [List.getElem?_eq_getElem hi, e])
        have : (findVar f.name mt.vars).isNone = false := by
          rw [Option.isNone_eq_false_iff, Option.isSome_iff_ne_none]
          intro hn
          exact findVar_none.1 hn m (List.mem_of_getElem? hm1) (findVar_some.1 hm2).2.1.symm
        simp [this]
      rw [← hsplit, List.filter_append, hnil, List.nil_append, hsplit] at hcount
      intro e he
      have := List.length_filter_eq_length_iff.1 hcount e he
      simp only [Bool.and_eq_true, Option.isNone_iff_eq_none] at this
      exact ⟨this.2, fun m hm hs => findVar_none.1 this.1 m hm hs⟩
    · unfold DistinctNames
      rw [List.pairwise_iff_getElem]
      intro i j hi hj hij hsame
      obtain ⟨m, hm1, hm2⟩ := hfront j _ (List.getElem?_eq_getElem hj)
      obtain ⟨_, s, hno⟩ := findVar_some.1 hm2
      have hi' : i < mt.vars.length := by rw [List.length_take] at hi; omega
      refine hno i hij _ ?_ (hsame.trans s)
      rw [← List.getElem?_take_of_lt hi', List.getElem?_eq_getElem hi]
    · intro i m f him hif
      obtain ⟨m', e1, e2⟩ := hfront i f hif
      rw [him] at e1
      injection e1 with e1
      subst e1
      obtain ⟨g, e3, e4, e5⟩ := hfind i m him
      rw [e2] at e3
      cases e3
      obtain ⟨d1, d2, d3⟩ := compareVar_ok.1 e5
      obtain ⟨o1, o2⟩ := optionalComp_ok.1 e4
      exact ⟨d1, d2 rfl, d3, o1, o2⟩
  · rintro ⟨front, extra, hsplit, hlen, hextra, hdist, hall⟩
    have hin : ∀ f ∈ front, (findVar f.name mt.vars).isNone = false := by
      intro f hfm
      obtain ⟨i, hi, e⟩ := List.getElem_of_mem hfm
      have hi' : i < mt.vars.length := by omega
      have := (hall i _ f (List.getElem?_eq_getElem hi') (by rw [List.getElem?_eq_getElem hi, e])).1.name
      rw [Option.isNone_eq_false_iff, Option.isSome_iff_ne_none]
      exact fun hn => findVar_none.1 hn _ (List.getElem_mem hi') this
    have hneed : neededLen mt ft mt.vars.length = mt.vars.length := by
      unfold neededLen
      have hfl : ft.vars.length = mt.vars.length + extra.length := by rw [hsplit, List.length_append, hlen]
      split
      · rw [hsplit, List.filter_append, List.filter_eq_nil_iff.2 (by intro f hf; simp [hin f hf]), List.nil_append,
          List.filter_eq_self.2, List.length_append, hlen]
        · omega
        · intro e he
          obtain ⟨h1, h2⟩ := hextra e he
          simp only [Bool.and_eq_true, Option.isNone_iff_eq_none]
          exact ⟨findVar_none.2 h2, h1⟩
      · next h => omega
    refine ⟨Or.inl hneed.symm, ?_⟩
    rw [checkVars_ok]
    intro i m him
    rw [Nat.zero_add, hneed]
    have hlt : i < mt.vars.length := (List.getElem?_eq_some_iff.1 him).1
    have hif : front[i]? = some front[i] := List.getElem?_eq_getElem (by omega)
    obtain ⟨d, hi, hk, o1, o2⟩ := hall i m _ him hif
    refine (checkVar_ok hlt (hr m (List.mem_of_getElem? him))).2 ⟨i, front[i], ?_, fun _ => rfl,
      optionalComp_ok.2 ⟨o1, o2⟩, compareVar_ok.2 ⟨d, fun _ => hi, hk⟩⟩
    rw [findVar_some, hsplit, List.getElem?_append_left (by omega)]
    refine ⟨hif, d.name.symm, fun j hj w hw hs => ?_⟩
    rw [List.getElem?_append_left (by omega), List.getElem?_eq_getElem (by omega)] at hw
    injection hw with hw
    unfold DistinctNames at hdist
    rw [List.pairwise_iff_getElem] at hdist
    exact hdist j i (by omega) (by omega) hj (by rw [hw]; exact hs.trans d.name)

end Ccpp.FM
