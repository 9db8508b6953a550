import Verif.Spec.PrebuildValues
/-!
# Proofs about the values around the calls of prebuild (C75): one argument
-/
namespace Ccpp.PV
open PB (Str)
open PA (Intent)

/-! ## The loops over the blocks -/

theorem gatherLoop_eq {V} : ∀ (sizes : List Nat) (bs : List (List V)) (pre rest : List V),
    bs.map List.length = sizes → sizes.sum = rest.length →
    gatherLoop sizes bs (pre.length + 1) (pre ++ rest) = some (pre ++ bs.flatten) := by
  intro sizes
  induction sizes with
  | nil =>
    intro bs pre rest hb hs
    cases bs with
    | nil => simp at hs; have : rest = [] := List.eq_nil_of_length_eq_zero hs.symm; simp [gatherLoop, this]
    | cons b bs => simp at hb
  | cons n ns ih =>
    intro bs pre rest hb hs
    cases bs with
    | nil => simp at hb
    | cons b bs =>
      simp only [List.map_cons, List.cons.injEq] at hb
      simp only [List.sum_cons] at hs
      rw [gatherLoop, if_pos ⟨hb.1, by simp only [List.length_append]; omega⟩]
      have e1 : (pre ++ rest).take (pre.length + 1 - 1) = pre := by simp
      have e2 : (pre ++ rest).drop (pre.length + 1 - 1 + n) = rest.drop n := by
        rw [Nat.add_sub_cancel, List.drop_append, List.drop_eq_nil_of_le (by omega)]; simp
      rw [e1, e2]
      have := ih bs (pre ++ b) (rest.drop n) hb.2 (by rw [List.length_drop]; omega)
      rw [List.length_append, hb.1, show pre.length + n + 1 = pre.length + 1 + n by omega] at this
      rw [this]; simp

theorem scatterLoop_eq {V} : ∀ (sizes : List Nat) (bs : List (List V)) (pre rest : List V),
    bs.map List.length = sizes → sizes.sum = rest.length →
    ∃ bs', scatterLoop sizes bs (pre.length + 1) (pre ++ rest) = some bs' ∧ bs'.map List.length = sizes ∧ bs'.flatten = rest := by
  intro sizes
  induction sizes with
  | nil =>
    intro bs pre rest hb hs
    cases bs with
    | nil => exact ⟨[], rfl, rfl, by simp at hs; simp [List.eq_nil_of_length_eq_zero hs.symm]⟩
    | cons b bs => simp at hb
  | cons n ns ih =>
    intro bs pre rest hb hs
    cases bs with
    | nil => simp at hb
    | cons b bs =>
      simp only [List.map_cons, List.cons.injEq] at hb
      simp only [List.sum_cons] at hs
      obtain ⟨bs', h1, h2, h3⟩ := ih bs (pre ++ rest.take n) (rest.drop n) hb.2 (by rw [List.length_drop]; omega)
      refine ⟨rest.take n :: bs', ?_, by simp [h2]; omega, by simp [h3]⟩
      rw [scatterLoop, if_pos ⟨hb.1, by simp only [List.length_append]; omega⟩]
      have e1 : ((pre ++ rest).drop (pre.length + 1 - 1)).take n = rest.take n := by simp
      have e2 : (pre ++ rest.take n).length + 1 = pre.length + 1 + n := by
        rw [List.length_append, List.length_take]; omega
      rw [e2, List.append_assoc, List.take_append_drop] at h1
      rw [e1, h1]; rfl

theorem gather_all {V} {sizes : List Nat} {bs : List (List V)} {t : List V} (hb : bs.map List.length = sizes) (hs : sizes.sum = t.length) :
    gatherLoop sizes bs 1 t = some bs.flatten := gatherLoop_eq sizes bs [] t hb hs

theorem scatter_all {V} {sizes : List Nat} {bs : List (List V)} {t : List V} (hb : bs.map List.length = sizes) (hs : sizes.sum = t.length) :
    ∃ bs', scatterLoop sizes bs 1 t = some bs' ∧ bs'.map List.length = sizes ∧ bs'.flatten = t := scatterLoop_eq sizes bs [] t hb hs

/-! ## One argument -/

/-- The argument has a temporary variable. -/
def usesTmp (run : Bool) (a : Arg) : Bool := deblock run a || converts run a

theorem converts_conv {run : Bool} {a : Arg} : converts run a = (!deblock run a && a.conv.isSome) := by
  unfold converts Arg.actIn Arg.actOut
  cases a.intent <;> cases a.conv <;> simp

theorem usesTmp_conv {run : Bool} {a : Arg} : usesTmp run a = (deblock run a || a.conv.isSome) := by
  unfold usesTmp; rw [converts_conv]; cases deblock run a <;> simp

/-- What is required of an argument. -/
structure ArgOk {V} (env : Env V) (run : Bool) (h : Host V) (a : Arg) : Prop where
  handled : deblock run a = true ∨ a.conv = none ∨ optional a = false ∨ a.intent = .inout
  placed : deblock run a = false → ∀ f, a.conv = some f → a.intent ≠ .out → a.dims = [] ∨ endsInVar f.1 = true
  accepted : refused run a = false
  array : a.hdim = true → a.arr = true
  shape : env.active a.cond h = true → ShapeOk env run (h a.key) a
  always : optional a = false → ∀ h', env.active a.cond h' = true

variable {V : Type} {env : Env V} {run : Bool}

theorem not_deblock {h : Host V} {a : Arg} (ok : ArgOk env run h a) (hd : deblock run a = false) : run = true ∨ blocked a.key = false := by
  have := ok.accepted
  unfold refused at this
  cases run with
  | true => exact .inl rfl
  | false => simp [hd] at this; exact .inr this.1

theorem deblock_run {a : Arg} (hd : deblock run a = true) : run = false ∧ blocked a.key = true ∧ a.hdim = true := by
  unfold deblock at hd; simpa [and_assoc] using hd

theorem readHost_visible {a : Arg} {bs : List (List V)} {h : Host V} (hd : run = true ∨ blocked a.key = false)
    (sh : ShapeOk env run bs a) (hk : h a.key = bs) : readHost env h a.key = some (visible env run a.key bs) := by
  obtain ⟨_, s2, s3, _⟩ := sh
  unfold readHost index visible
  rw [hk]
  cases hb : blocked a.key with
  | true =>
    rw [hb] at hd; simp at hd; subst hd
    have := s3 rfl hb
    simp [List.getElem?_eq_getElem this]
  | false =>
    have := s2 hb
    match bs, this with
    | [l], _ => simp

theorem visible_set {a : Arg} {bs : List (List V)} (hd : run = true ∨ blocked a.key = false) (sh : ShapeOk env run bs a) {v : List V}
    (hv : v.length = (visible env run a.key bs).length) :
    visible env run a.key (bs.set (index env a.key) v) = v ∧
    (bs.set (index env a.key) v).map List.length = bs.map List.length ∧
    (run = true → blocked a.key = true → ∀ i, i ≠ env.blk → (bs.set (index env a.key) v)[i]? = bs[i]?) := by
  obtain ⟨_, s2, s3, _⟩ := sh
  unfold visible at hv
  unfold index visible
  cases hb : blocked a.key with
  | true =>
    rw [hb] at hd; simp at hd; subst hd
    have h3 := s3 rfl hb
    simp only [hb, Bool.and_self, if_true, List.getElem?_eq_getElem h3, Option.getD_some] at hv
    refine ⟨by simp [h3], ?_, fun _ _ i hi => by simp [List.getElem?_set_ne (Ne.symm hi)]⟩
    apply List.ext_getElem?
    intro i
    by_cases hi : i = env.blk
    · subst hi; simp [h3, hv]
    · simp [List.getElem?_set_ne (Ne.symm hi)]
  | false =>
    have := s2 hb
    match bs, this with
    | [l], _ =>
      simp [hb] at hv
      exact ⟨by simp, by simp [hv], fun _ hc => absurd hc (by simp)⟩

theorem writeHost_eq {a : Arg} {bs : List (List V)} {h : Host V} (hd : run = true ∨ blocked a.key = false)
    (sh : ShapeOk env run bs a) (hk : h a.key = bs) {v : List V} (hv : v.length = (visible env run a.key bs).length) :
    writeHost env h a.key v = some (upd h a.key (bs.set (index env a.key) v)) := by
  unfold writeHost
  rw [readHost_visible hd sh hk]
  simp only [hv, if_true, hk]

theorem toScheme_length {a : Arg} {v : List V} : (toScheme env a v).length = v.length := by
  unfold toScheme; cases a.conv <;> simp

theorem toHost_length {a : Arg} {v : List V} : (toHost env a v).length = v.length := by
  unfold toHost; cases a.conv <;> simp

theorem visible_scalar {a : Arg} {bs : List (List V)} (hrb : run = true ∨ blocked a.key = false) (sh : ShapeOk env run bs a)
    (harr : a.arr = false) : (visible env run a.key bs).length = 1 := by
  obtain ⟨_, s2, s3, s4⟩ := sh
  have s4 := s4 harr
  unfold visible
  cases hb : blocked a.key with
  | true =>
    rw [hb] at hrb; simp at hrb
    have := s3 hrb hb
    simp [hrb, List.getElem?_eq_getElem this, s4 _ (List.getElem_mem this)]
  | false =>
    have := s2 hb
    match bs, this with
    | [l], _ => simp [s4 l (by simp)]

/-- Nothing is left over from an earlier call. -/
def Clean (run : Bool) (s : Tmps) (m : Mem V) (a : Arg) : Prop :=
  (usesTmp run a = true → ∀ l, m.tmp (tmpOf s a) = some l → a.arr = false ∧ l.length = 1) ∧
  (optional a = true → m.ptr (ptrOf s a) = .null)

/-- The argument is ready for the call. -/
def Mid (env : Env V) (run : Bool) (s : Tmps) (h : Host V) (m : Mem V) (a : Arg) : Prop :=
  (env.active a.cond h = false → Clean run s m a) ∧
  (env.active a.cond h = true →
    (usesTmp run a = true →
      (a.arr = true ∨ a.intent ≠ .out → ∃ w, m.tmp (tmpOf s a) = some w) ∧
      ∀ w, m.tmp (tmpOf s a) = some w → w.length = (visible env run a.key (h a.key)).length ∧
        (a.intent ≠ .out → w = toScheme env a (visible env run a.key (h a.key)))) ∧
    (optional a = true → m.ptr (ptrOf s a) = if usesTmp run a then .tmp (tmpOf s a) else .host a.key) ∧
    (optional a = true → usesTmp run a = true → ∃ w, m.tmp (tmpOf s a) = some w))

/-- What a step for one argument leaves alone. -/
def Frame (run : Bool) (s : Tmps) (a : Arg) (m m' : Mem V) : Prop :=
  (∀ t, (usesTmp run a = true → t ≠ tmpOf s a) → m'.tmp t = m.tmp t) ∧
  (∀ p, (optional a = true → p ≠ ptrOf s a) → m'.ptr p = m.ptr p) ∧
  (∀ k, k ≠ a.key → m'.host k = m.host k)

theorem upd_self {β} (f : Str → β) (k : Str) (v : β) : upd f k v k = v := by simp [upd]
theorem upd_ne {β} {f : Str → β} {k x : Str} {v : β} (h : x ≠ k) : upd f k v x = f x := by simp [upd, h]

/-- The statements before the call -/
theorem before_one {s : Tmps} {m : Mem V} {a : Arg} (ok : ArgOk env run m.host a) (cl : Clean run s m a) :
    ∃ m', execBlocks env m [(a.cond, before run s a)] = some m' ∧ m'.host = m.host ∧ Mid env run s m.host m' a ∧ Frame run s a m m' := by
  by_cases hact : env.active a.cond m.host = true
  swap
  · refine ⟨m, by simp [execBlocks, hact], rfl, ⟨fun _ => cl, fun h => absurd h hact⟩, ?_⟩
    exact ⟨fun _ _ => rfl, fun _ _ => rfl, fun _ _ => rfl⟩
  have sh := ok.shape hact
  by_cases hd : deblock run a = true
  · -- blocked data
    obtain ⟨hr, hb, hh⟩ := deblock_run hd
    have hu : usesTmp run a = true := by simp [usesTmp, hd]
    have harr := ok.array hh
    have hnone : m.tmp (tmpOf s a) = none := by
      cases ht : m.tmp (tmpOf s a) with
      | none => rfl
      | some l => exact absurd (cl.1 hu l ht).1 (by simp [harr])
    obtain ⟨hs1, hs2⟩ := sh.1 hd
    have hg : gatherLoop env.sizes (m.host a.key) 1 ((List.range env.hdim).map (env.junk (tmpOf s a))) = some (m.host a.key).flatten :=
      gather_all hs1 (by simpa using hs2)
    have hvis : visible env run a.key (m.host a.key) = (m.host a.key).flatten := by simp [visible, hr]
    -- the value of the temporary variable
    have key : ∀ w, (a.intent ≠ .out → w = toScheme env a (m.host a.key).flatten) → w.length = (m.host a.key).flatten.length →
        ∀ m' : Mem V, m'.tmp = upd m.tmp (tmpOf s a) (some w) →
        m'.ptr = (if optional a then upd m.ptr (ptrOf s a) (.tmp (tmpOf s a)) else m.ptr) → m'.host = m.host →
        Mid env run s m.host m' a ∧ Frame run s a m m' := by
      intro w hw hl m' h1 h2 h3
      refine ⟨⟨fun h => (by rw [h] at hact; exact absurd hact (by simp)), fun _ => ⟨fun _ => ⟨fun _ => ⟨w, by rw [h1, upd_self]⟩, ?_⟩, ?_, ?_⟩⟩, ?_, ?_, ?_⟩
      · intro w' hw'
        rw [h1, upd_self] at hw'
        cases hw'
        rw [hvis]
        exact ⟨hl, hw⟩
      · intro ho; rw [h2, if_pos ho, upd_self, if_pos hu]
      · intro _ _; exact ⟨w, by rw [h1, upd_self]⟩
      · intro t ht; rw [h1, upd_ne (ht hu)]
      · intro p hp
        rw [h2]
        split
        · next ho => rw [upd_ne (hp ho)]
        · rfl
      · intro k _; rw [h3]
    have hbef : before run s a = [.allocAll (tmpOf s a), .gather (tmpOf s a) a.key] ++
        (match a.actIn with | some f => [.convert (tmpOf s a) f] | none => []) ++
        (if optional a then [.pointTmp (ptrOf s a) (tmpOf s a)] else []) := by unfold before; rw [if_pos hd]; cases a.actIn <;> rfl
    cases hai : a.actIn with
    | none =>
      have hw : a.intent ≠ .out → (m.host a.key).flatten = toScheme env a (m.host a.key).flatten := by
        intro hi
        unfold Arg.actIn at hai
        rw [if_neg hi] at hai
        unfold toScheme
        cases hc : a.conv with
        | none => rfl
        | some f => rw [hc] at hai; cases hai
      refine ⟨⟨m.host, upd m.tmp (tmpOf s a) (some (m.host a.key).flatten),
        if optional a then upd m.ptr (ptrOf s a) (.tmp (tmpOf s a)) else m.ptr⟩, ?_, rfl, key _ hw rfl _ rfl rfl rfl⟩
      rw [hbef, hai]
      have e : ∀ x, upd (upd m.tmp (tmpOf s a) x) (tmpOf s a) (some (m.host a.key).flatten) = upd m.tmp (tmpOf s a) (some (m.host a.key).flatten) := by
        intro x; funext y; by_cases hy : y = tmpOf s a <;> simp [upd, hy]
      cases ho : optional a <;>
        simp [execBlocks, hact, execList, exec, hnone, upd_self, hg, e]
    | some f =>
      have hw : a.intent ≠ .out → (m.host a.key).flatten.map (env.fn f) = toScheme env a (m.host a.key).flatten := by
        intro hi
        unfold Arg.actIn at hai
        rw [if_neg hi] at hai
        unfold toScheme
        cases hc : a.conv with
        | none => rw [hc] at hai; cases hai
        | some g => rw [hc] at hai; cases hai; rfl
      refine ⟨⟨m.host, upd m.tmp (tmpOf s a) (some ((m.host a.key).flatten.map (env.fn f))),
        if optional a then upd m.ptr (ptrOf s a) (.tmp (tmpOf s a)) else m.ptr⟩, ?_, rfl,
        key _ hw (by rw [List.length_map]) _ rfl rfl rfl⟩
      rw [hbef, hai]
      have e : ∀ x y, upd (upd m.tmp (tmpOf s a) x) (tmpOf s a) y = upd m.tmp (tmpOf s a) y := by
        intro x y; funext z; by_cases hz : z = tmpOf s a <;> simp [upd, hz]
      cases ho : optional a <;>
        simp [execBlocks, hact, execList, exec, hnone, upd_self, hg, e]
  have hd' : deblock run a = false := by simpa using hd
  have hrb := not_deblock ok hd'
  have hrd := readHost_visible hrb sh rfl
  by_cases hc : converts run a = true
  · -- unit conversion
    have hu : usesTmp run a = true := by simp [usesTmp, hc]
    have hcs : a.conv.isSome = true := by rw [converts_conv] at hc; simp at hc; exact hc.2
    obtain ⟨f, hf⟩ := Option.isSome_iff_exists.1 hcs
    have hnone : a.arr = true → m.tmp (tmpOf s a) = none := by
      intro harr
      cases ht : m.tmp (tmpOf s a) with
      | none => rfl
      | some l => exact absurd (cl.1 hu l ht).1 (by simp [harr])
    have hbef : before run s a = (if a.arr then [.alloc (tmpOf s a) a.key] else []) ++
      (match a.actIn with
       | some f => [.convIn (tmpOf s a) f a.key a.dims] ++ (if optional a then [.pointTmp (ptrOf s a) (tmpOf s a)] else [])
       | none => []) := by unfold before; rw [if_neg (by simp [hd']), if_pos hc]; cases a.actIn <;> rfl
    have e : ∀ x y, upd (upd m.tmp (tmpOf s a) x) (tmpOf s a) y = upd m.tmp (tmpOf s a) y := by
      intro x y; funext z; by_cases hz : z = tmpOf s a <;> simp [upd, hz]
    by_cases hio : a.intent = .out
    · -- intent(out): nothing is copied
      have hai : a.actIn = none := by simp [Arg.actIn, hio]
      have hno : optional a = false := by
        rcases ok.handled with h | h | h | h
        · rw [hd'] at h; cases h
        · rw [hf] at h; cases h
        · exact h
        · rw [hio] at h; cases h
      cases harr : a.arr with
      | true =>
        let w := (List.range (visible env run a.key (m.host a.key)).length).map (env.junk (tmpOf s a))
        refine ⟨⟨m.host, upd m.tmp (tmpOf s a) (some w), m.ptr⟩, ?_, rfl, ⟨fun h => (by rw [h] at hact; cases hact), fun _ => ⟨fun _ => ⟨fun _ => ⟨w, by simp [upd_self]⟩, ?_⟩, fun h => (by rw [hno] at h; cases h), fun h => (by rw [hno] at h; cases h)⟩⟩, ?_, fun _ _ => rfl, fun _ _ => rfl⟩
        · rw [hbef, hai, harr]
          simp [execBlocks, hact, execList, exec, hnone harr, hrd, w]
        · intro w' hw'
          simp only [upd_self, Option.some.injEq] at hw'
          subst hw'
          exact ⟨by simp [w], fun h => absurd hio h⟩
        · intro t ht; simp only [upd_ne (ht hu)]
      | false =>
        refine ⟨m, ?_, rfl, ⟨fun h => (by rw [h] at hact; cases hact), fun _ => ⟨fun _ => ⟨fun h => ?_, ?_⟩, fun h => (by rw [hno] at h; cases h), fun h => (by rw [hno] at h; cases h)⟩⟩, fun _ _ => rfl, fun _ _ => rfl, fun _ _ => rfl⟩
        · rw [hbef, hai, harr]; simp [execBlocks, execList]
        · rcases h with h | h
          · rw [harr] at h; cases h
          · exact absurd hio h
        · intro w hw
          refine ⟨?_, fun h => absurd hio h⟩
          rw [(cl.1 hu w hw).2, visible_scalar hrb sh harr]
    · have hai : a.actIn = some f.1 := by simp [Arg.actIn, hio, hf]
      have hpl : (a.dims.isEmpty || endsInVar f.1) = true := by
        rcases ok.placed hd' f hf hio with h | h <;> simp [h]
      have hval : (visible env run a.key (m.host a.key)).map (env.fn f.1) = toScheme env a (visible env run a.key (m.host a.key)) := by
        simp [toScheme, hf]
      refine ⟨⟨m.host, upd m.tmp (tmpOf s a) (some (toScheme env a (visible env run a.key (m.host a.key)))),
        if optional a then upd m.ptr (ptrOf s a) (.tmp (tmpOf s a)) else m.ptr⟩, ?_, rfl, ?_, ?_⟩
      · rw [hbef, hai]
        cases harr : a.arr <;> cases ho : optional a <;>
          simp [execBlocks, hact, execList, exec, hrd, hval, e, hpl, harr, hnone]
      · refine ⟨fun h => (by rw [h] at hact; cases hact), fun _ => ⟨fun _ => ⟨fun _ => ⟨_, upd_self ..⟩, ?_⟩, ?_, fun _ _ => ⟨_, upd_self ..⟩⟩⟩
        · intro w hw
          simp only [upd_self, Option.some.injEq] at hw
          subst hw
          exact ⟨toScheme_length, fun _ => rfl⟩
        · intro ho; simp only [ho, if_true, upd_self, hu]
      · refine ⟨fun t ht => by simp only [upd_ne (ht hu)], fun p hp => ?_, fun _ _ => rfl⟩
        show (if optional a then upd m.ptr (ptrOf s a) (.tmp (tmpOf s a)) else m.ptr) p = m.ptr p
        split
        · next ho => rw [upd_ne (hp ho)]
        · rfl
  · have hc' : converts run a = false := by simpa using hc
    have hu : usesTmp run a = false := by simp [usesTmp, hc', hd']
    have hbef : before run s a = if optional a then [.pointHost (ptrOf s a) a.key] else [] := by
      unfold before; rw [if_neg (by simp [hd']), if_neg (by simp [hc'])]
    refine ⟨⟨m.host, m.tmp, if optional a then upd m.ptr (ptrOf s a) (.host a.key) else m.ptr⟩, ?_, rfl, ?_, ?_⟩
    · rw [hbef]; cases ho : optional a <;> simp [execBlocks, hact, execList, exec]
    · refine ⟨fun h => (by rw [h] at hact; cases hact), fun _ => ⟨fun h => (by rw [hu] at h; cases h), fun ho => ?_, fun _ h => (by rw [hu] at h; cases h)⟩⟩
      simp [ho, upd_self, hu]
    · refine ⟨fun t ht => rfl, fun p hp => ?_, fun _ _ => rfl⟩
      show (if optional a then upd m.ptr (ptrOf s a) (.host a.key) else m.ptr) p = m.ptr p
      split
      · next ho => rw [upd_ne (hp ho)]
      · rfl

/-- The value that the scheme gets -/
theorem read_one {s : Tmps} {h : Host V} {m : Mem V} {a : Arg} (ok : ArgOk env run h a) (mid : Mid env run s h m a)
    (hk : m.host a.key = h a.key) :
    ∃ v, readActual env m (actual run s a) = some v ∧
      (env.active a.cond h = false → v = none) ∧
      (env.active a.cond h = true → ∃ w, v = some w ∧ w.length = (visible env run a.key (h a.key)).length ∧
        (a.intent ≠ .out → w = toScheme env a (visible env run a.key (h a.key)))) := by
  by_cases hact : env.active a.cond h = true
  swap
  · have hact : env.active a.cond h = false := by simpa using hact
    have ho : optional a = true := by
      cases ho : optional a with
      | true => rfl
      | false => rw [ok.always ho] at hact; cases hact
    refine ⟨none, ?_, fun _ => rfl, fun h => (by rw [hact] at h; cases h)⟩
    simp [actual, ho, readActual, (mid.1 hact).2 ho]
  obtain ⟨m1, m2, m3⟩ := mid.2 hact
  have sh := ok.shape hact
  cases hu : usesTmp run a with
  | false =>
    have hd : deblock run a = false := by simp [usesTmp] at hu; exact hu.1
    have hc : converts run a = false := by simp [usesTmp] at hu; exact hu.2
    have hcn : a.conv = none := by rw [converts_conv, hd] at hc; simpa using hc
    have hrd := readHost_visible (h := m.host) (not_deblock ok hd) sh hk
    refine ⟨some (visible env run a.key (h a.key)), ?_, fun h => (by rw [hact] at h; cases h), fun _ => ⟨_, rfl, rfl, fun _ => by simp [toScheme, hcn]⟩⟩
    cases ho : optional a with
    | true => simp [actual, ho, readActual, m2 ho, hu, hrd]
    | false => simp [actual, ho, readActual, hd, hc, hrd]
  | true =>
    obtain ⟨m1, m1'⟩ := m1 hu
    cases ht : m.tmp (tmpOf s a) with
    | some w =>
      obtain ⟨w1, w2⟩ := m1' w ht
      refine ⟨some w, ?_, fun h => (by rw [hact] at h; cases h), fun _ => ⟨w, rfl, w1, w2⟩⟩
      cases ho : optional a with
      | true => simp [actual, ho, readActual, m2 ho, hu, ht]
      | false =>
        cases hd : deblock run a with
        | true => simp [actual, ho, readActual, hd, ht]
        | false =>
          have hc : converts run a = true := by simpa [usesTmp, hd] using hu
          simp [actual, ho, readActual, hd, ht, hc]
    | none =>
      have hna : a.arr = false := by
        cases harr : a.arr with
        | false => rfl
        | true => obtain ⟨w, hw⟩ := m1 (.inl harr); rw [ht] at hw; cases hw
      have hio : a.intent = .out := by
        by_cases hio : a.intent = .out
        · exact hio
        · obtain ⟨w, hw⟩ := m1 (.inr hio); rw [ht] at hw; cases hw
      have ho : optional a = false := by
        cases ho : optional a with
        | false => rfl
        | true => obtain ⟨w, hw⟩ := m3 ho hu; rw [ht] at hw; cases hw
      have hd : deblock run a = false := by
        cases hd : deblock run a with
        | false => rfl
        | true => have := ok.array (deblock_run hd).2.2; rw [hna] at this; cases this
      have hc : converts run a = true := by simpa [usesTmp, hd] using hu
      refine ⟨some [env.junk (tmpOf s a) 0], ?_, fun h => (by rw [hact] at h; cases h), fun _ => ⟨_, rfl, ?_, fun h => absurd hio h⟩⟩
      · simp [actual, ho, readActual, hd, hc, ht, hna]
      · rw [visible_scalar (not_deblock ok hd) sh hna]; rfl

/-- The scheme has changed the argument -/
def Done (env : Env V) (run : Bool) (s : Tmps) (h : Host V) (out : List V) (m : Mem V) (a : Arg) : Prop :=
  (env.active a.cond h = false → Clean run s m a) ∧
  (env.active a.cond h = true → usesTmp run a = true → ∃ w, m.tmp (tmpOf s a) = some w ∧ (a.intent ≠ .in → w = out) ∧
    w.length = (visible env run a.key (h a.key)).length) ∧
  m.host a.key = (if env.active a.cond h = true ∧ usesTmp run a = false ∧ a.intent ≠ .in then
    (h a.key).set (index env a.key) out else h a.key)

theorem write_one {s : Tmps} {h : Host V} {m : Mem V} {a : Arg} {out : List V} (ok : ArgOk env run h a) (mid : Mid env run s h m a)
    (hk : m.host a.key = h a.key) (hl : env.active a.cond h = true → out.length = (visible env run a.key (h a.key)).length) :
    ∃ m', (if a.intent = .in then some m else writeActual env m out (actual run s a)) = some m' ∧
      Done env run s h out m' a ∧ Frame run s a m m' ∧ m'.ptr = m.ptr := by
  by_cases hact : env.active a.cond h = true
  swap
  · have hact : env.active a.cond h = false := by simpa using hact
    have ho : optional a = true := by
      cases ho : optional a with
      | true => rfl
      | false => rw [ok.always ho] at hact; cases hact
    refine ⟨m, ?_, ⟨mid.1, fun h => (by rw [hact] at h; cases h), by simp [hact, hk]⟩, ⟨fun _ _ => rfl, fun _ _ => rfl, fun _ _ => rfl⟩, rfl⟩
    split
    · rfl
    · simp [actual, ho, writeActual, (mid.1 hact).2 ho]
  obtain ⟨m1, m2, m3⟩ := mid.2 hact
  have sh := ok.shape hact
  by_cases hi : a.intent = .in
  · refine ⟨m, if_pos hi, ⟨mid.1, fun _ hu => ?_, by simp [hi, hk]⟩, ⟨fun _ _ => rfl, fun _ _ => rfl, fun _ _ => rfl⟩, rfl⟩
    obtain ⟨w, hw⟩ := (m1 hu).1 (.inr (by simp [hi]))
    exact ⟨w, hw, fun h => absurd hi h, ((m1 hu).2 w hw).1⟩
  rw [if_neg hi]
  cases hu : usesTmp run a with
  | false =>
    have hd : deblock run a = false := by simp [usesTmp] at hu; exact hu.1
    have hc : converts run a = false := by simp [usesTmp] at hu; exact hu.2
    have hw := writeHost_eq (h := m.host) (not_deblock ok hd) sh hk (hl hact)
    refine ⟨⟨upd m.host a.key ((h a.key).set (index env a.key) out), m.tmp, m.ptr⟩, ?_, ⟨fun h => (by rw [hact] at h; cases h), fun _ h => (by rw [hu] at h; cases h), ?_⟩, ⟨fun _ _ => rfl, fun _ _ => rfl, fun k hk => upd_ne hk⟩, rfl⟩
    · cases ho : optional a with
      | true => simp [actual, ho, writeActual, m2 ho, hu, hw]
      | false => simp [actual, ho, writeActual, hd, hc, hw]
    · simp [hact, hu, hi, upd_self]
  | true =>
    refine ⟨⟨m.host, upd m.tmp (tmpOf s a) (some out), m.ptr⟩, ?_, ⟨fun h => (by rw [hact] at h; cases h), fun _ _ => ⟨out, upd_self .., fun _ => rfl, hl hact⟩, by simp [hu, hk]⟩, ⟨fun t ht => upd_ne (ht hu), fun _ _ => rfl, fun _ _ => rfl⟩, rfl⟩
    cases ho : optional a with
    | true => simp [actual, ho, writeActual, m2 ho, hu]
    | false =>
      cases hd : deblock run a with
      | true => simp [actual, ho, writeActual, hd]
      | false =>
        have hc : converts run a = true := by simpa [usesTmp, hd] using hu
        simp [actual, ho, writeActual, hd, hc]

/-- The requirements for one variable of the host after the call -/
def Fin (env : Env V) (run : Bool) (h : Host V) (out : List V) (a : Arg) (bs : List (List V)) : Prop :=
  (a.intent = .in ∨ env.active a.cond h = false → bs = h a.key) ∧
  bs.map List.length = (h a.key).map List.length ∧
  (run = true → blocked a.key = true → ∀ i, i ≠ env.blk → bs[i]? = (h a.key)[i]?) ∧
  (a.intent ≠ .in → env.active a.cond h = true → visible env run a.key bs = toHost env a out)

theorem fin_same {h : Host V} {out : List V} {a : Arg} (hi : a.intent = .in ∨ env.active a.cond h = false) : Fin env run h out a (h a.key) := by
  refine ⟨fun _ => rfl, rfl, fun _ _ _ _ => rfl, fun h1 h2 => ?_⟩
  rcases hi with hi | hi
  · exact absurd hi h1
  · rw [hi] at h2; cases h2

theorem fin_set {h : Host V} {out v : List V} {a : Arg} (hrb : run = true ∨ blocked a.key = false) (sh : ShapeOk env run (h a.key) a)
    (hi : a.intent ≠ .in) (hact : env.active a.cond h = true) (hv : v = toHost env a out)
    (hl : out.length = (visible env run a.key (h a.key)).length) : Fin env run h out a ((h a.key).set (index env a.key) v) := by
  have := visible_set hrb sh (v := v) (by rw [hv, toHost_length, hl])
  refine ⟨fun h' => ?_, this.2.1, this.2.2, fun _ _ => by rw [this.1, hv]⟩
  rcases h' with h' | h'
  · exact absurd h' hi
  · rw [hact] at h'; cases h'

theorem kill_ptr {ptr : Str → Ptr} {t q : Str} {o : Bool} (h : ∀ p, ptr p = .tmp t → o = true ∧ p = q) :
    (o = true → upd (kill ptr t) q .null = upd ptr q .null) ∧ (o = true → kill (upd ptr q .null) t = upd ptr q .null) ∧ (o = false → kill ptr t = ptr) := by
  refine ⟨fun _ => ?_, fun _ => ?_, fun ho => ?_⟩
  · funext p
    by_cases hp : p = q
    · subst hp; rw [upd_self, upd_self]
    · rw [upd_ne hp, upd_ne hp]
      unfold kill
      rw [if_neg fun h' => hp (h p h').2]
  · funext p
    unfold kill
    by_cases hp : p = q
    · subst hp; rw [upd_self]; rfl
    · rw [upd_ne hp, if_neg fun h' => hp (h p h').2]
  · funext p
    unfold kill
    rw [if_neg]
    intro h'
    have := (h p h').1
    rw [ho] at this; cases this

/-- The statements after the call -/
theorem after_one {s : Tmps} {h : Host V} {m : Mem V} {a : Arg} {out : List V} (ok : ArgOk env run h a) (dn : Done env run s h out m a)
    (hc0 : env.active a.cond m.host = env.active a.cond h)
    (hl : env.active a.cond h = true → out.length = (visible env run a.key (h a.key)).length)
    (hpt : usesTmp run a = true → ∀ p, m.ptr p = .tmp (tmpOf s a) → optional a = true ∧ p = ptrOf s a) :
    ∃ m', execBlocks env m [(a.cond, after run s a)] = some m' ∧ Fin env run h out a (m'.host a.key) ∧ Clean run s m' a ∧ Frame run s a m m' ∧
      (a.intent = .in → m'.host = m.host) := by
  obtain ⟨d1, d2, d3⟩ := dn
  by_cases hact : env.active a.cond h = true
  swap
  · have hact : env.active a.cond h = false := by simpa using hact
    refine ⟨m, by simp [execBlocks, hc0, hact], ?_, d1 hact, ⟨fun _ _ => rfl, fun _ _ => rfl, fun _ _ => rfl⟩, fun _ => rfl⟩
    rw [d3, if_neg (by simp [hact])]
    exact fin_same (.inr hact)
  have sh := ok.shape hact
  have hl := hl hact
  have hact' : env.active a.cond m.host = true := by rw [hc0, hact]
  cases hu : usesTmp run a with
  | false =>
    have hd : deblock run a = false := by simp [usesTmp] at hu; exact hu.1
    have hc : converts run a = false := by simp [usesTmp] at hu; exact hu.2
    have hcn : a.conv = none := by rw [converts_conv, hd] at hc; simpa using hc
    refine ⟨⟨m.host, m.tmp, if optional a then upd m.ptr (ptrOf s a) .null else m.ptr⟩, ?_, ?_, ⟨fun h => (by rw [hu] at h; cases h), fun ho => ?_⟩, ⟨fun _ _ => rfl, fun p hp => ?_, fun _ _ => rfl⟩, fun _ => rfl⟩
    · have : after run s a = if optional a then [.nullify (ptrOf s a)] else [] := by
        unfold after; rw [if_neg (by simp [hd]), if_neg (by simp [hc])]
      rw [this]
      cases ho : optional a <;> simp [execBlocks, hact', execList, exec]
    · show Fin env run h out a (m.host a.key)
      rw [d3]
      by_cases hi : a.intent = .in
      · rw [if_neg (by simp [hi])]; exact fin_same (.inl hi)
      · rw [if_pos ⟨hact, hu, hi⟩]
        exact fin_set (not_deblock ok hd) sh hi hact (by simp [toHost, hcn]) hl
    · simp [ho, upd_self]
    · show (if optional a then upd m.ptr (ptrOf s a) .null else m.ptr) p = m.ptr p
      split
      · next ho => rw [upd_ne (hp ho)]
      · rfl
  | true =>
    obtain ⟨w, hw, hw1, hw2⟩ := d2 hact hu
    obtain ⟨k1, k2, k3⟩ := kill_ptr (hpt hu)
    rw [hu] at d3
    simp only [Bool.true_eq_false, false_and, and_false, if_false] at d3
    cases hd : deblock run a with
    | true =>
      obtain ⟨hr, hb, hh⟩ := deblock_run hd
      obtain ⟨hs1, hs2⟩ := sh.1 hd
      have hvis : ∀ bs, visible env run a.key bs = bs.flatten := by intro bs; simp [visible, hr]
      rw [hvis] at hl hw2
      have haft : after run s a = (match a.actOut with | some f => [.convert (tmpOf s a) f] | none => []) ++
        (if a.intent = .in then [] else [.scatter a.key (tmpOf s a)]) ++ [.dealloc (tmpOf s a)] ++
        (if optional a then [.nullify (ptrOf s a)] else []) := by
          unfold after; rw [if_pos hd]; cases a.actOut <;> rfl
      -- the clean state afterwards
      have key : ∀ m' : Mem V, m'.tmp = upd m.tmp (tmpOf s a) none →
          m'.ptr = (if optional a then upd m.ptr (ptrOf s a) .null else m.ptr) → (∀ k, k ≠ a.key → m'.host k = m.host k) →
          Clean run s m' a ∧ Frame run s a m m' := by
        intro m' h1 h2 h3
        refine ⟨⟨fun _ l hl => ?_, fun ho => ?_⟩, fun t ht => ?_, fun p hp => ?_, h3⟩
        · rw [h1, upd_self] at hl; cases hl
        · rw [h2, if_pos ho, upd_self]
        · rw [h1, upd_ne (ht hu)]
        · rw [h2]
          split
          · next ho => rw [upd_ne (hp ho)]
          · rfl
      have e : ∀ x y, upd (upd m.tmp (tmpOf s a) x) (tmpOf s a) y = upd m.tmp (tmpOf s a) y := by
        intro x y; funext z; by_cases hz : z = tmpOf s a <;> simp [upd, hz]
      by_cases hi : a.intent = .in
      · have hao : a.actOut = none := by simp [Arg.actOut, hi]
        refine ⟨⟨m.host, upd m.tmp (tmpOf s a) none, if optional a then upd m.ptr (ptrOf s a) .null else m.ptr⟩, ?_, ?_, (key ⟨m.host, upd m.tmp (tmpOf s a) none, if optional a then upd m.ptr (ptrOf s a) .null else m.ptr⟩ rfl rfl fun _ _ => rfl).1, (key ⟨m.host, upd m.tmp (tmpOf s a) none, if optional a then upd m.ptr (ptrOf s a) .null else m.ptr⟩ rfl rfl fun _ _ => rfl).2, fun _ => rfl⟩
        · rw [haft, hao]
          cases ho : optional a <;> simp [execBlocks, hact', execList, exec, hi, hw, k1, k2, k3, ho]
        · show Fin env run h out a (m.host a.key)
          rw [d3]; exact fin_same (.inl hi)
      · have hwo := hw1 hi
        subst hwo
        have hflat : (h a.key).flatten.length = env.sizes.sum := by
          rw [← hs1]; rw [List.length_flatten]
        obtain ⟨bs, b1, b2, b3⟩ := scatter_all (bs := h a.key) (t := toHost env a w) hs1 (by rw [toHost_length, hl, hflat])
        refine ⟨⟨upd m.host a.key bs, upd m.tmp (tmpOf s a) none, if optional a then upd m.ptr (ptrOf s a) .null else m.ptr⟩, ?_, ?_, (key _ rfl rfl fun _ hk => upd_ne hk).1, (key _ rfl rfl fun _ hk => upd_ne hk).2, fun h => absurd h hi⟩
        · rw [haft]
          cases hcv : a.conv with
          | none =>
            have hao : a.actOut = none := by simp [Arg.actOut, hcv]
            have ht : toHost env a w = w := by simp [toHost, hcv]
            rw [ht] at b1
            rw [hao]
            cases ho : optional a <;> simp [execBlocks, hact', execList, exec, hi, hw, d3, b1, k1, k2, k3, ho]
          | some f =>
            have hao : a.actOut = some f.2 := by simp [Arg.actOut, hcv, hi]
            have ht : toHost env a w = w.map (env.fn f.2) := by simp [toHost, hcv]
            rw [ht] at b1
            rw [hao]
            cases ho : optional a <;> simp [execBlocks, hact', execList, exec, hi, hw, d3, b1, upd_self, e, k1, k2, k3, ho]
        · show Fin env run h w a (upd m.host a.key bs a.key)
          rw [upd_self]
          refine ⟨fun h' => ?_, by rw [b2, hs1], fun h' => (by rw [hr] at h'; cases h'), fun _ _ => by rw [hvis, b3]⟩
          rcases h' with h' | h'
          · exact absurd h' hi
          · rw [hact] at h'; cases h'
    | false =>
      have hc : converts run a = true := by simpa [usesTmp, hd] using hu
      have hcs : a.conv.isSome = true := by rw [converts_conv] at hc; simp at hc; exact hc.2
      obtain ⟨f, hf⟩ := Option.isSome_iff_exists.1 hcs
      have hrb := not_deblock ok hd
      have haft : after run s a = (match a.actOut with
         | some f => [.convOut a.key f (tmpOf s a)] ++ (if optional a then [.nullify (ptrOf s a)] else [])
         | none => []) ++ (if a.arr then [.dealloc (tmpOf s a)] else []) := by
        unfold after; rw [if_neg (by simp [hd]), if_pos hc]; cases a.actOut <;> rfl
      have key : ∀ m' : Mem V, m'.tmp = (if a.arr then upd m.tmp (tmpOf s a) none else m.tmp) →
          m'.ptr = (if optional a then upd m.ptr (ptrOf s a) .null else m.ptr) → (∀ k, k ≠ a.key → m'.host k = m.host k) →
          Clean run s m' a ∧ Frame run s a m m' := by
        intro m' h1 h2 h3
        refine ⟨⟨fun _ l hl' => ?_, fun ho => ?_⟩, fun t ht => ?_, fun p hp => ?_, h3⟩
        · rw [h1] at hl'
          cases harr : a.arr with
          | true => rw [harr, if_pos rfl, upd_self] at hl'; cases hl'
          | false =>
            rw [harr, if_neg (by simp), hw] at hl'
            cases hl'
            rw [visible_scalar hrb sh harr] at hw2
            exact ⟨rfl, hw2⟩
        · rw [h2, if_pos ho, upd_self]
        · rw [h1]
          split
          · rw [upd_ne (ht hu)]
          · rfl
        · rw [h2]
          split
          · next ho => rw [upd_ne (hp ho)]
          · rfl
      by_cases hi : a.intent = .in
      · have hao : a.actOut = none := by simp [Arg.actOut, hi]
        have hno : optional a = false := by
          rcases ok.handled with h | h | h | h
          · rw [hd] at h; cases h
          · rw [hf] at h; cases h
          · exact h
          · rw [hi] at h; cases h
        refine ⟨⟨m.host, if a.arr then upd m.tmp (tmpOf s a) none else m.tmp, m.ptr⟩, ?_, ?_, (key ⟨m.host, if a.arr then upd m.tmp (tmpOf s a) none else m.tmp, m.ptr⟩ rfl (by simp [hno]) fun _ _ => rfl).1, (key ⟨m.host, if a.arr then upd m.tmp (tmpOf s a) none else m.tmp, m.ptr⟩ rfl (by simp [hno]) fun _ _ => rfl).2, fun _ => rfl⟩
        · rw [haft, hao]
          cases harr : a.arr <;> simp [execBlocks, hact', execList, exec, hw, k3, hno]
        · show Fin env run h out a (m.host a.key)
          rw [d3]; exact fin_same (.inl hi)
      · have hwo := hw1 hi
        subst hwo
        have hao : a.actOut = some f.2 := by simp [Arg.actOut, hf, hi]
        have ht : toHost env a w = w.map (env.fn f.2) := by simp [toHost, hf]
        have hwr := writeHost_eq (h := m.host) hrb sh d3 (v := w.map (env.fn f.2)) (by rw [List.length_map, hl])
        refine ⟨⟨upd m.host a.key ((h a.key).set (index env a.key) (w.map (env.fn f.2))), if a.arr then upd m.tmp (tmpOf s a) none else m.tmp, if optional a then upd m.ptr (ptrOf s a) .null else m.ptr⟩, ?_, ?_, (key _ rfl rfl fun _ hk => upd_ne hk).1, (key _ rfl rfl fun _ hk => upd_ne hk).2, fun h => absurd h hi⟩
        · rw [haft, hao]
          cases harr : a.arr <;> cases ho : optional a <;> simp [execBlocks, hact', execList, exec, hw, hwr, k1, k2, k3, ho]
        · show Fin env run h w a (upd m.host a.key _ a.key)
          rw [upd_self]
          exact fin_set hrb sh hi hact ht.symm hl

end Ccpp.PV
