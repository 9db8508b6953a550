import Verif.Lemmas.Constituents
import Verif.Spec.Constituents
/-! # C14 – C18: the constituents object -/
namespace Ccpp.Const
open Hash

variable {R : Type}

/-! ## Invariant of all histories -/

/-- Layout of a locked object. -/
structure Layout (s : Sys R) (m : List (Ptr R)) (L : List (Ptr R)) : Prop where
  perm : L.Perm m
  metas : s.obj.metadata = some (L.map some)
  idx : ∀ (i : Nat) (p : Ptr R), L[i]? = some p →
    (s.heap p.id).constInd = some ((i : Int) + 1) ∧ (p.advected = true ↔ i < s.obj.numAdvected)
  layer : ∀ p ∈ L, isLayer p = true
  advLe : s.obj.numAdvected ≤ L.length
  data : s.obj.dataLocked = true → ∃ vs, s.obj.varsLayer = some vs ∧ vs.length = L.length

structure InvT (s : Sys R) (t : Table (Ptr R)) (m : List (Ptr R)) : Prop where
  ref : Refines key t m
  ids : m.Pairwise (fun p q => p.id ≠ q.id)
  names : m.Pairwise (fun p q => ¬ SameKey (key p) (key q))
  lt : ∀ p ∈ m, p.id < s.next
  opened : s.obj.tableLocked = false →
    (∀ p ∈ m, (s.heap p.id).constInd = none) ∨ ∃ p ∈ m, isLayer p = false
  stale : s.obj.tableLocked = false → s.obj.dataLocked = true → m = []
  lock : s.obj.tableLocked = true → ∃ L, Layout s m L

structure Inv (s : Sys R) : Prop where
  tab : ∀ t, s.obj.table = some t → ∃ m, InvT s t m
  data : s.obj.dataLocked = false →
    s.obj.varsLayer = none ∧ s.obj.varsTend = none ∧ s.obj.varsMin = none

theorem specLookup_mem {m : List (Ptr R)} {k : List Char} {p : Ptr R}
    (h : specLookup key m k = some p) : p ∈ m ∧ SameKey (key p) k := by
  unfold specLookup at h
  exact ⟨List.mem_of_find?_eq_some h, by simpa using List.find?_some h⟩

theorem specLookup_self {m : List (Ptr R)} (hpw : m.Pairwise (fun p q => ¬ SameKey (key p) (key q)))
    {p : Ptr R} {k : List Char} (hp : p ∈ m) (hk : SameKey (key p) k) :
    specLookup key m k = some p := by
  induction m with
  | nil => simp at hp
  | cons w m ih =>
    unfold specLookup
    rw [List.pairwise_cons] at hpw
    rcases List.mem_cons.1 hp with rfl | hp'
    · rw [List.find?_cons_of_pos (by simpa using hk)]
    · have : ¬ SameKey (key w) k := by
        intro h
        exact hpw.1 p hp' (by unfold SameKey at *; rw [h, hk])
      rw [List.find?_cons_of_neg (by simpa using this)]
      exact ih hpw.2 hp'

theorem findConst_refines {o : Obj R} {t : Table (Ptr R)} {m : List (Ptr R)}
    (ht : o.table = some t) (hr : Refines key t m) (k : List Char) :
    findConst o k = specLookup key m k := by
  unfold findConst
  rw [ht]
  simp only [lookup_refines hr k]
  cases specLookup key m k <;> rfl

/-- What add_metadata does, in the list view of the registry. -/
theorem addMetadata_cases {h : Heap R} {o : Obj R} {p : Ptr R} {e0 : Int}
    (hT : ∀ t, o.table = some t → ∃ m, Refines key t m) :
    (addMetadata h o p e0).1 = o ∨
    ∃ t t' m, o.table = some t ∧ Refines key t m ∧ o.tableLocked = false ∧ o.dataLocked = false ∧
      Refines key t' (m ++ [p]) ∧ (∀ q ∈ m, ¬ SameKey (key q) (key p)) ∧
      (addMetadata h o p e0).1 = { o with
        table := some t'
        numLayerVars := if isLayer p then o.numLayerVars + 1 else o.numLayerVars } ∧
      (addMetadata h o p e0).2 = 0 := by
  unfold addMetadata okayToAdd propsLocked dataLocked Obj.isInit
  cases ht : o.table with
  | none => left; simp
  | some t =>
    obtain ⟨m, hr⟩ := hT t ht
    simp only [Option.isSome_some, if_true]
    cases hl : o.tableLocked with
    | true => left; simp
    | false =>
      cases hd : o.dataLocked with
      | true => left; simp
      | false =>
        simp only [Bool.or_self, Bool.false_eq_true, if_false]
        cases hf : findConst o (fit stdnameLen p.name) with
        | some q =>
          simp only
          left
          split <;> rfl
        | none =>
          simp only
          obtain ⟨ha, hb, hc⟩ := add_refines hr p
          cases hany : m.any (fun w => decide (SameKey (key w) (key p))) with
          | true =>
            left
            rw [hany] at hb
            have h1 := hc hany
            simp only [if_true] at hb
            have : add key t p = (t, some .duplicate) := Prod.ext h1 hb
            rw [this]
            simp only
            cases o; simp_all
          | false =>
            right
            rw [hany] at hb
            simp only [Bool.false_eq_true, if_false] at hb
            unfold specAdd at ha
            rw [hany] at ha
            simp only [Bool.false_eq_true, if_false] at ha
            have hadd : add key t p = ((add key t p).1, none) := Prod.ext rfl hb
            refine ⟨t, (add key t p).1, m, rfl, hr, by simp, by simp, ha, ?_, ?_, ?_⟩
            · intro q hq hs
              have : m.any (fun w => decide (SameKey (key w) (key p))) = true :=
                List.any_eq_true.2 ⟨q, hq, by simpa using hs⟩
              rw [hany] at this; simp at this
            · rw [hadd]
              simp only
              cases isLayer p <;> simp
            · rw [hadd]
              simp only
              cases isLayer p <;> simp

/-- What lock_table does on an unlocked initialised object. -/
theorem lockTable_cases {h : Heap R} {o : Obj R} {t : Table (Ptr R)} {m : List (Ptr R)}
    (ht : o.table = some t) (hr : Refines key t m)
    (hids : m.Pairwise (fun p q => p.id ≠ q.id)) (hl : o.tableLocked = false) :
    (m = [] ∧ lockTable h o = .crash) ∨
    (m ≠ [] ∧
      -- a constituent that is not a layer variable
      (((∃ p ∈ m, isLayer p = false) ∧ ∃ h' metas na e, lockTable h o = .done h'
          { reset o false with numAdvected := na, metadata := some metas } e ∧ e ≠ 0 ∧
          (∀ id, (∀ p ∈ m, p.id ≠ id) → h' id = h id)) ∨
      -- all layer variables
      ((∀ p ∈ m, isLayer p = true) ∧ ((∀ p ∈ m, (h p.id).constInd = none) →
        ∃ h' na, ∃ L : List (Ptr R), L.Perm m ∧ lockTable h o = .done h'
          { reset o false with numAdvected := na, metadata := some (L.map some),
                               tableLocked := true } 0 ∧
          (∀ (i : Nat) (p : Ptr R), L[i]? = some p →
            (h' p.id).constInd = some ((i : Int) + 1) ∧ (p.advected = true ↔ i < na)) ∧
          na = (m.filter (·.advected)).length ∧
          (∀ id, (∀ p ∈ m, p.id ≠ id) → h' id = h id) ∧
          (∀ id, (h' id).thermo = (h id).thermo ∧ (h' id).water = (h id).water ∧
            (h' id).minVal = (h id).minVal))))) := by
  have hpl : (propsLocked o).1 = false := by
    unfold propsLocked Obj.isInit; rw [ht]; simp [hl]
  unfold lockTable
  rw [hpl]
  simp only [Bool.false_eq_true, if_false, ht]
  rcases iterValues_spec hr with ⟨h1, h2⟩ | ⟨h1, l, h2, hp⟩
  · left
    exact ⟨h1, by rw [h2]⟩
  · right
    refine ⟨h1, ?_⟩
    rw [h2]
    simp only
    have hn : numValues t = l.length := by rw [hp.length_eq]; exact hr.num
    have hna : ¬ (l.filter (·.advected)).length > numValues t := by
      rw [hn]; have := List.length_filter_le (fun p : Ptr R => p.advected) l; omega
    rw [if_neg hna]
    cases hb : l.any (fun p => !isLayer p) with
    | true =>
      left
      obtain ⟨p, hpl', hpb⟩ := List.any_eq_true.1 hb
      have hpb : isLayer p = false := by simpa using hpb
      refine ⟨⟨p, hp.mem_iff.1 hpl', hpb⟩, ?_⟩
      generalize hs0 : (Pack.mk h (List.replicate (numValues t) none) 0
          (l.filter (·.advected)).length 0 0 : Pack R) = s0
      have hE := packLoop_bad (l.filter (·.advected)).length (numValues t) l s0 ⟨p, hpl', hpb⟩
      have hF := (packLoop_frame (l.filter (·.advected)).length (numValues t) l s0).1
      -- errcode after the loop is positive as well
      have hErr : 0 < (packLoop (l.filter (·.advected)).length (numValues t) s0 l).err := by
        have : ∀ (na n : Nat) (l : List (Ptr R)) (s : Pack R), 0 ≤ s.err → s.errLocal = 0 →
            0 < (packLoop na n s l).errLocal → 0 < (packLoop na n s l).err := by
          intro na n l
          induction l with
          | nil => intro s _ h0 h; simp only [packLoop] at h; omega
          | cons q l ih =>
            intro s h0 h1 h
            have hset : ∀ (h : Heap R) (i : Int), 0 ≤ (setConstIndex h q.id i).2 := by
              intro h i; unfold setConstIndex; split <;> simp
            simp only [packLoop] at h ⊢
            split
            · rename_i ha
              rw [if_pos ha] at h
              split
              · simp only; omega
              · rename_i hgt
                rw [if_neg hgt] at h
                split
                · rename_i hlay
                  rw [if_pos hlay] at h
                  exact ih _ (hset _ _) h1 h
                · simp
            · rename_i ha
              rw [if_neg ha] at h
              split
              · simp only; omega
              · rename_i hgt
                rw [if_neg hgt] at h
                split
                · rename_i hlay
                  rw [if_pos hlay] at h
                  exact ih _ (hset _ _) h1 h
                · simp
        exact this _ _ _ _ (by rw [← hs0]; simp) (by rw [← hs0]) hE
      have hh : s0.heap = h := by rw [← hs0]
      rw [hh] at hF
      generalize hs1 : packLoop (l.filter (·.advected)).length (numValues t) s0 l = s1 at hE hErr hF
      have key2 : ∀ (s2 : Pack R), s2.heap = s1.heap → 0 < s2.err →
          ∃ h' metas na e,
            (if (if s2.err ≠ 0 then 1 else s2.errLocal) = 0 then
              Outcome.done s2.heap { reset o false with
                numAdvected := (l.filter (·.advected)).length, metadata := some s2.metas,
                tableLocked := true } s2.err
            else .done s2.heap { reset o false with
              numAdvected := (l.filter (·.advected)).length, metadata := some s2.metas } s2.err) =
            .done h' { reset o false with numAdvected := na, metadata := some metas } e ∧ e ≠ 0 ∧
            (∀ id, (∀ p ∈ m, p.id ≠ id) → h' id = h id) := by
        intro s2 hs2 he2
        have hne : s2.err ≠ 0 := by omega
        refine ⟨s2.heap, s2.metas, (l.filter (·.advected)).length, s2.err, ?_, hne, ?_⟩
        · rw [if_pos hne, if_neg (by decide)]
        · intro id hid
          rw [hs2]
          exact hF id (fun p hp' => hid p (hp.mem_iff.1 hp'))
      apply key2
      · split <;> split <;> rfl
      · split <;> split <;> (try simp only) <;> omega
    | false =>
      right
      have hall : ∀ p ∈ m, isLayer p = true := by
        intro p hpm
        have := List.any_eq_false.1 hb p (hp.mem_iff.2 hpm)
        simpa using this
      refine ⟨hall, fun hc => ?_⟩
      have hP := packLoop_ok h (l.filter (·.advected)).length (numValues t) l []
        { heap := h, metas := List.replicate (numValues t) none, ia := 0,
          ic := (l.filter (·.advected)).length, err := 0, errLocal := 0 }
        ⟨by simp [adv], by simp [nonadv], by
            simp only [adv, nonadv, List.filter_nil, List.map_nil, List.length_nil, Nat.sub_zero,
              List.nil_append, List.replicate_append_replicate]
            congr 1
            have := List.length_filter_le (fun p : Ptr R => p.advected) l
            omega,
          by intro i p; simp [adv], by intro i p; simp [nonadv], by intro id _; rfl,
          by intro id; exact ⟨rfl, rfl, rfl⟩, rfl, rfl⟩
        (by simp [adv]) (by simpa using hn)
        (by
          rw [List.nil_append]
          exact (hp.pairwise_iff (fun {a b} hab => Ne.symm hab)).2 hids)
        (fun p hpl => hc p (hp.mem_iff.1 hpl)) (fun p hpl => hall p (hp.mem_iff.1 hpl))
      rw [List.nil_append] at hP
      have hlen := adv_nonadv_length l
      have hA : (l.filter (·.advected)).length = (adv l).length := rfl
      have hmet : (packLoop (l.filter (·.advected)).length (numValues t)
          { heap := h, metas := List.replicate (numValues t) none, ia := 0,
            ic := (l.filter (·.advected)).length, err := 0, errLocal := 0 } l).metas =
          (adv l ++ nonadv l).map some := by
        rw [hP.metas, hA, hn]
        have e1 : (adv l).length - (adv l).length = 0 := by omega
        have e2 : l.length - (adv l).length - (nonadv l).length = 0 := by omega
        rw [e1, e2]
        simp
      have hic := hP.ic
      have hia := hP.ia
      have herr := hP.err
      have hel := hP.errLocal
      rw [hA] at hic hia herr hel hmet hP
      rw [hA]
      generalize packLoop (adv l).length (numValues t)
          { heap := h, metas := List.replicate (numValues t) none, ia := 0,
            ic := (adv l).length, err := 0, errLocal := 0 } l = s1 at *
      refine ⟨s1.heap, (adv l).length, adv l ++ nonadv l, ?_, ?_, ?_, ?_, ?_, hP.same⟩
      · exact (List.filter_append_perm (fun p : Ptr R => p.advected) l).trans hp
      · have c1 : ¬ s1.ic ≠ numValues t := by omega
        have c2 : ¬ s1.ia ≠ (adv l).length := by omega
        rw [if_neg c1]
        rw [if_neg c2, herr, hel, hmet]
        simp
      · intro i p hip
        rw [List.getElem?_append] at hip
        split at hip
        · rename_i hlt
          refine ⟨hP.idxA i p hip, ?_⟩
          have := (List.mem_filter.1 (List.mem_of_getElem? hip)).2
          constructor
          · intro _; exact hlt
          · intro _; exact this
        · rename_i hge
          have h3 := hP.idxN _ p hip
          refine ⟨?_, ?_⟩
          · rw [h3]
            congr 1
            omega
          · have := (List.mem_filter.1 (List.mem_of_getElem? hip)).2
            constructor
            · intro h4; rw [h4] at this; simp at this
            · intro h4; omega
      · exact (hp.filter _).length_eq
      · intro id hid
        exact hP.other id (fun p hpl => hid p (hp.mem_iff.1 hpl))

/-- Everything a state may keep: only the tracked parts matter. -/
theorem InvT.congr {s s' : Sys R} {t : Table (Ptr R)} {m : List (Ptr R)} (hi : InvT s t m)
    (hnext : s.next ≤ s'.next)
    (hidx : ∀ p ∈ m, (s'.heap p.id).constInd = (s.heap p.id).constInd)
    (htl : s'.obj.tableLocked = s.obj.tableLocked) (hdl : s'.obj.dataLocked = s.obj.dataLocked)
    (hm : s'.obj.metadata = s.obj.metadata) (hna : s'.obj.numAdvected = s.obj.numAdvected)
    (hv : ∀ vs, s.obj.varsLayer = some vs → ∃ vs', s'.obj.varsLayer = some vs' ∧
      vs'.length = vs.length) : InvT s' t m where
  ref := hi.ref
  ids := hi.ids
  names := hi.names
  lt := fun p hp => Nat.lt_of_lt_of_le (hi.lt p hp) hnext
  opened := by
    intro h
    rw [htl] at h
    rcases hi.opened h with h1 | h1
    · left; intro p hp; rw [hidx p hp]; exact h1 p hp
    · right; exact h1
  stale := by intro h1 h2; rw [htl] at h1; rw [hdl] at h2; exact hi.stale h1 h2
  lock := by
    intro h
    rw [htl] at h
    obtain ⟨L, hL⟩ := hi.lock h
    refine ⟨L, hL.perm, by rw [hm]; exact hL.metas, ?_, hL.layer, by rw [hna]; exact hL.advLe, ?_⟩
    · intro i p hp
      rw [hidx p (hL.perm.mem_iff.1 (List.mem_of_getElem? hp)), hna]
      exact hL.idx i p hp
    · intro hd
      rw [hdl] at hd
      obtain ⟨vs, h1, h2⟩ := hL.data hd
      obtain ⟨vs', h3, h4⟩ := hv vs h1
      exact ⟨vs', h3, by omega⟩

theorem copyOutLoop_length (h : Heap R) (sel : Sel) (nl : Int) (a : Arr R)
    (ms : List (Option (Ptr R))) : ∀ (i c : Nat) (vars : List (Slice R)),
    (copyOutLoop h sel nl a i c vars ms).1.length = vars.length := by
  induction ms with
  | nil => intro i c vars; rfl
  | cons m ms ih =>
    intro i c vars
    simp only [copyOutLoop]
    repeat' split
    all_goals first | rfl | (rw [ih]; try simp)

theorem inv_step {zero : R} {s s' : Sys R} {c : Call R} {e : Int} (hi : Inv s)
    (hs : step zero s c = some (s', e)) (hk : ∀ k, c = .init k → 0 ≤ k) : Inv s' := by
  cases c with
  | init k =>
    simp only [step, Option.some.injEq, Prod.mk.injEq] at hs
    obtain ⟨rfl, rfl⟩ := hs
    refine ⟨?_, ?_⟩
    · intro t ht
      simp only [initObj, Option.some.injEq] at ht
      subst ht
      refine ⟨[], init_refines key k none _ (hk k rfl), by simp, by simp, by simp, by simp,
        by simp, ?_⟩
      intro h; simp [initObj] at h
    · intro _; simp [initObj, reset]
  | add name units vd ad th wa d mn =>
    simp only [step, Option.some.injEq, Prod.mk.injEq] at hs
    obtain ⟨rfl, rfl⟩ := hs
    generalize hheap : (fun j => if j = s.next then
      ({ constInd := none, thermo := th, water := wa, minVal := mn } : Mut R) else s.heap j) = heap
    have hold : ∀ id, id < s.next → heap id = s.heap id := by
      intro id hid; rw [← hheap]; simp only; rw [if_neg (by omega)]
    generalize hp : newPtr s.next name units vd ad d = p
    have hpid : p.id = s.next := by rw [← hp]; rfl
    rcases addMetadata_cases (h := heap) (o := s.obj) (p := p) (e0 := 0)
        (fun t ht => by obtain ⟨m, hm⟩ := hi.tab t ht; exact ⟨m, hm.ref⟩) with
      h0 | ⟨t, t', m', ht, hr', hl, hd, hr2, hnew, ho, _⟩
    · refine ⟨?_, ?_⟩
      · intro t ht
        simp only [h0] at ht
        obtain ⟨m, hm⟩ := hi.tab t ht
        refine ⟨m, hm.congr (by simp) (fun q hq => ?_) (by simp [h0]) (by simp [h0])
          (by simp [h0]) (by simp [h0]) (fun vs hv => ⟨vs, by simpa [h0] using hv, rfl⟩)⟩
        simp only
        rw [hold q.id (hm.lt q hq)]
      · simp only [h0]; exact hi.data
    · refine ⟨?_, ?_⟩
      · intro t1 ht1
        simp only [ho, Option.some.injEq] at ht1
        subst ht1
        obtain ⟨m, hm⟩ := hi.tab t ht
        -- the list view of a table is determined up to order
        have hperm : m'.Perm m := by
          have a1 := iterValues_spec hr'
          have a2 := iterValues_spec hm.ref
          rcases a1 with ⟨e1, f1⟩ | ⟨e1, l1, f1, g1⟩ <;> rcases a2 with ⟨e2, f2⟩ | ⟨e2, l2, f2, g2⟩
          · rw [e1, e2]
          · rw [f1] at f2; simp at f2
          · rw [f1] at f2; simp at f2
          · rw [f1] at f2; simp only [Option.some.injEq] at f2; subst f2; exact g1.symm.trans g2
        refine ⟨m' ++ [p], hr2, ?_, ?_, ?_, ?_, ?_, ?_⟩
        · rw [List.pairwise_append]
          refine ⟨(hperm.pairwise_iff (fun {a b} hab => Ne.symm hab)).2 hm.ids, by simp, ?_⟩
          intro a ha b hb
          simp at hb; subst hb
          have := hm.lt a (hperm.mem_iff.1 ha)
          omega
        · rw [List.pairwise_append]
          refine ⟨(hperm.pairwise_iff (fun {a b} hab h => hab h.symm)).2 hm.names, by simp, ?_⟩
          intro a ha b hb
          simp at hb; subst hb
          exact hnew a ha
        · intro q hq
          rcases List.mem_append.1 hq with h | h
          · have := hm.lt q (hperm.mem_iff.1 h); simp only; omega
          · simp at h; subst h; simp only; omega
        · intro _
          rcases hm.opened hl with h | ⟨q, hq, hq2⟩
          · left
            intro q hq
            rcases List.mem_append.1 hq with h1 | h1
            · simp only
              rw [hold q.id (hm.lt q (hperm.mem_iff.1 h1))]
              exact h q (hperm.mem_iff.1 h1)
            · simp at h1; subst h1
              simp only [hpid, ← hheap, if_true]
          · right; exact ⟨q, by simp [hperm.mem_iff.2 hq], hq2⟩
        · intro _ h2
          simp only [ho] at h2
          rw [hd] at h2; simp at h2
        · intro h2
          simp only [ho] at h2
          rw [hl] at h2; simp at h2
      · simp only [ho]; exact hi.data
  | lockTable =>
    simp only [step] at hs
    cases hL : lockTable s.heap s.obj with
    | crash => rw [hL] at hs; simp at hs
    | done h1 o1 e1 =>
      rw [hL] at hs
      simp only [Option.some.injEq, Prod.mk.injEq] at hs
      obtain ⟨rfl, rfl⟩ := hs
      cases hpl : (propsLocked s.obj).1 with
      | true =>
        unfold lockTable at hL
        rw [hpl] at hL
        simp only [if_true, Outcome.done.injEq] at hL
        obtain ⟨rfl, rfl, _⟩ := hL
        exact hi
      | false =>
        cases ht : s.obj.table with
        | none =>
          unfold lockTable at hL
          rw [hpl, ht] at hL
          simp at hL
        | some t =>
          have hl : s.obj.tableLocked = false := by
            unfold propsLocked Obj.isInit at hpl; rw [ht] at hpl; simpa using hpl
          obtain ⟨m, hm⟩ := hi.tab t ht
          rcases lockTable_cases (h := s.heap) ht hm.ref hm.ids hl with
            ⟨_, hc⟩ | ⟨hne, ⟨hbad, h', metas, na, e, hd, _, hfr⟩ | ⟨hall, hok⟩⟩
          · rw [hc] at hL; simp at hL
          · rw [hd] at hL
            simp only [Outcome.done.injEq] at hL
            obtain ⟨rfl, rfl, rfl⟩ := hL
            refine ⟨?_, ?_⟩
            · intro t2 ht2
              simp only [reset, Bool.false_eq_true, if_false, ht, Option.some.injEq] at ht2
              subst ht2
              refine ⟨m, hm.ref, hm.ids, hm.names, hm.lt, fun _ => Or.inr hbad, ?_, ?_⟩
              · intro _ hdl
                simp only [reset, Bool.false_eq_true, if_false] at hdl
                exact hm.stale hl hdl
              · intro h3
                simp only [reset, Bool.false_eq_true, if_false] at h3
                rw [hl] at h3; simp at h3
            · intro _; simp [reset]
          · have hcn : ∀ p ∈ m, (s.heap p.id).constInd = none := by
              rcases hm.opened hl with h | ⟨q, hq, hq2⟩
              · exact h
              · rw [hall q hq] at hq2; simp at hq2
            obtain ⟨h', na, L, hperm, hd, hidx, hna, _, _⟩ := hok hcn
            rw [hd] at hL
            simp only [Outcome.done.injEq] at hL
            obtain ⟨rfl, rfl, rfl⟩ := hL
            refine ⟨?_, ?_⟩
            · intro t2 ht2
              simp only [reset, Bool.false_eq_true, if_false, ht, Option.some.injEq] at ht2
              subst ht2
              refine ⟨m, hm.ref, hm.ids, hm.names, hm.lt, ?_, ?_, ?_⟩
              · intro h3; simp at h3
              · intro h3; simp at h3
              · intro _
                refine ⟨L, hperm, rfl, hidx, fun p hp => hall p (hperm.mem_iff.1 hp), by
                  simp only; rw [hna, hperm.length_eq]; exact List.length_filter_le _ _, ?_⟩
                intro hdl
                simp only [reset, Bool.false_eq_true, if_false] at hdl
                exact absurd (hm.stale hl hdl) hne
            · intro _; simp [reset]
  | lockData nl =>
    simp only [step, Option.some.injEq, Prod.mk.injEq] at hs
    obtain ⟨rfl, rfl⟩ := hs
    unfold lockData
    repeat' split
    all_goals first | exact hi | skip
    rename_i h1 h2 h3 _ _ t ms ht hms
    have hdl : s.obj.dataLocked = false := by
      unfold dataLocked Obj.isInit at h1; rw [ht] at h1; simpa using h1
    have hl : s.obj.tableLocked = true := by
      unfold propsLocked Obj.isInit at h2; rw [ht] at h2; simpa using h2
    refine ⟨?_, ?_⟩
    · intro t2 ht2
      simp only [Option.some.injEq] at ht2
      rw [ht] at ht2
      simp only [Option.some.injEq] at ht2
      subst ht2
      obtain ⟨m, hm⟩ := hi.tab t ht
      refine ⟨m, hm.ref, hm.ids, hm.names, hm.lt, ?_, ?_, ?_⟩
      · intro h; simp only at h; rw [hl] at h; simp at h
      · intro h; simp only at h; rw [hl] at h; simp at h
      · intro _
        obtain ⟨L, hL⟩ := hm.lock hl
        refine ⟨L, hL.perm, hL.metas, hL.idx, hL.layer, hL.advLe, ?_⟩
        intro _
        refine ⟨_, rfl, ?_⟩
        have e1 := hL.metas
        rw [hms] at e1
        simp only [Option.some.injEq] at e1
        rw [e1]
        have e2 : numValues t = L.length := by rw [hL.perm.length_eq]; exact hm.ref.num
        simp [e2]
    · intro h; simp at h
  | reset =>
    simp only [step, Option.some.injEq, Prod.mk.injEq] at hs
    obtain ⟨rfl, rfl⟩ := hs
    refine ⟨?_, ?_⟩
    · intro t ht; simp [reset] at ht
    · intro _; simp [reset]
  | copyOut sel a =>
    simp only [step, Option.some.injEq, Prod.mk.injEq] at hs
    obtain ⟨rfl, rfl⟩ := hs
    unfold copyOut
    split
    · rename_i hlk
      split
      · rename_i vars hv
        refine ⟨?_, ?_⟩
        · intro t ht
          obtain ⟨m, hm⟩ := hi.tab t ht
          refine ⟨m, hm.congr (by simp) (fun _ _ => rfl) rfl rfl rfl rfl ?_⟩
          intro vs hvs
          rw [hv] at hvs
          simp only [Option.some.injEq] at hvs
          subst hvs
          exact ⟨_, rfl, copyOutLoop_length _ _ _ _ _ _ _ _⟩
        · intro h
          have := hi.data h
          rw [hv] at this; simp at this
      · exact hi
    · exact hi
  | setThermo id b =>
    simp only [step, Option.some.injEq, Prod.mk.injEq] at hs
    obtain ⟨rfl, rfl⟩ := hs
    refine ⟨fun t ht => ?_, hi.data⟩
    obtain ⟨m, hm⟩ := hi.tab t ht
    refine ⟨m, hm.congr (by simp) (fun p _ => ?_) rfl rfl rfl rfl (fun vs h => ⟨vs, h, rfl⟩)⟩
    simp only; split <;> simp_all
  | setWater id b =>
    simp only [step, Option.some.injEq, Prod.mk.injEq] at hs
    obtain ⟨rfl, rfl⟩ := hs
    refine ⟨fun t ht => ?_, hi.data⟩
    obtain ⟨m, hm⟩ := hi.tab t ht
    refine ⟨m, hm.congr (by simp) (fun p _ => ?_) rfl rfl rfl rfl (fun vs h => ⟨vs, h, rfl⟩)⟩
    simp only; split <;> simp_all
  | setMinimum id v =>
    simp only [step, Option.some.injEq, Prod.mk.injEq] at hs
    obtain ⟨rfl, rfl⟩ := hs
    refine ⟨fun t ht => ?_, hi.data⟩
    obtain ⟨m, hm⟩ := hi.tab t ht
    refine ⟨m, hm.congr (by simp) (fun p _ => ?_) rfl rfl rfl rfl (fun vs h => ⟨vs, h, rfl⟩)⟩
    simp only; split <;> simp_all

theorem inv_fresh (h : Heap R) : Inv { heap := h, next := 0, obj := fresh } :=
  ⟨by intro t ht; simp [fresh] at ht, by simp [fresh]⟩

theorem inv_history {zero : R} {cs : List (Call R)} {s : Sys R} (h : History zero cs s) :
    Inv s := by
  induction h with
  | start h => exact inv_fresh h
  | snoc _ hs hk ih => exact inv_step ih hs hk

/-! ## C14 -/

theorem locked_table {o : Obj R} (h : (propsLocked o).1 = true) :
    ∃ t, o.table = some t ∧ o.tableLocked = true := by
  unfold propsLocked Obj.isInit at h
  cases ht : o.table with
  | none => rw [ht] at h; simp at h
  | some t => rw [ht] at h; exact ⟨t, rfl, by simpa using h⟩

/-- **C14** (partial: constituents whose index was not set by hand before the lock; see
`C14_preset_index_violated`).  In every state with locked properties reachable by any history of
calls, `const_metadata` is a list `L` of exactly the registered constituents, each once; its
length is the number of constituents; position `i` (counted from 0) holds an advected constituent
exactly when `i < num_advected_vars`, which is the number of advected constituents; the index
returned for the standard name of the constituent at position `i` is `i + 1`; and a name which is
not registered has the unassigned index. -/
theorem C14_packed_partial {zero : R} {cs : List (Call R)} {s : Sys R} (h : History zero cs s)
    (hl : (propsLocked s.obj).1 = true) :
    ∃ L : List (Ptr R), s.obj.metadata = some (L.map some) ∧
      (∀ p, p ∈ L ↔ ∃ k, findConst s.obj k = some p) ∧
      L.Pairwise (fun p q => rtrim p.name ≠ rtrim q.name) ∧
      numMatch s.heap s.obj ⟨none, none, none⟩ = (L.length, 0) ∧
      numMatch s.heap s.obj ⟨some true, none, none⟩ = (s.obj.numAdvected, 0) ∧
      (∀ (i : Nat) (p : Ptr R), L[i]? = some p →
        constIndex s.heap s.obj p.name = ((i : Int) + 1, 0) ∧
        (p.advected = true ↔ i < s.obj.numAdvected)) ∧
      (∀ k, (∀ p ∈ L, rtrim p.name ≠ rtrim k) →
        constIndex s.heap s.obj k = (intUnassigned, 0)) := by
  obtain ⟨t, ht, htl⟩ := locked_table hl
  have hi := inv_history h
  obtain ⟨m, hm⟩ := hi.tab t ht
  obtain ⟨L, hL⟩ := hm.lock htl
  have hpl2 : (propsLocked s.obj).2 = 0 := by
    unfold propsLocked Obj.isInit; rw [ht]; simp
  have hf : ∀ k, findConst s.obj k = specLookup key m k := findConst_refines ht hm.ref
  have hci : ∀ k, constIndex s.heap s.obj k = ((match specLookup key m k with
      | some p => metaIndex s.heap (some p) | none => intUnassigned), 0) := by
    intro k
    unfold constIndex
    rw [hl, hpl2, hf k]
    simp only [if_true]
    cases specLookup key m k <;> rfl
  refine ⟨L, hL.metas, ?_, ?_, ?_, ?_, ?_, ?_⟩
  · intro p
    rw [hL.perm.mem_iff]
    constructor
    · intro hp
      exact ⟨key p, by rw [hf]; exact specLookup_self hm.names hp rfl⟩
    · rintro ⟨k, hk⟩
      rw [hf] at hk
      exact (specLookup_mem hk).1
  · exact (hL.perm.pairwise_iff (R := fun p q : Ptr R => rtrim p.name ≠ rtrim q.name)
      (fun {a b} hab => Ne.symm hab)).2 hm.names
  · unfold numMatch
    rw [hl, hpl2, hL.metas]
    have : ((L.map some).filter (selMatch s.heap ⟨none, none, none⟩)) = L.map some := by
      rw [List.filter_eq_self]; intro a _; simp [selMatch]
    simp [this]
  · unfold numMatch
    rw [hl, hpl2, hL.metas]
    simp only [if_true, Option.getD_some, Prod.mk.injEq, and_true]
    rw [List.filter_map, List.length_map]
    have he : (selMatch s.heap ⟨some true, none, none⟩) ∘ some = fun p : Ptr R => p.advected := by
      funext p; simp [selMatch]
    rw [he]
    -- count the advected entries by position
    have hcnt : ∀ (L : List (Ptr R)) (n : Nat),
        (∀ (i : Nat) (p : Ptr R), L[i]? = some p → (p.advected = true ↔ i < n)) →
        (L.filter (·.advected)).length = min n L.length := by
      intro L
      induction L with
      | nil => intro n _; simp
      | cons p L ih =>
        intro n hn
        have h0 := hn 0 p (by simp)
        cases n with
        | zero =>
          have hp : p.advected = false := by
            cases hp : p.advected with
            | true => exact absurd (h0.1 hp) (by omega)
            | false => rfl
          have := ih 0 (fun i q hq => by
            have := hn (i + 1) q (by simpa using hq)
            constructor
            · intro h; have := this.1 h; omega
            · intro h; omega)
          simp [hp, this]
        | succ n =>
          have hp : p.advected = true := h0.2 (by omega)
          have := ih n (fun i q hq => by
            have := hn (i + 1) q (by simpa using hq)
            constructor
            · intro h; have := this.1 h; omega
            · intro h; exact this.2 (by omega))
          simp [hp, this]
    rw [hcnt L s.obj.numAdvected (fun i p hip => (hL.idx i p hip).2)]
    have hle : s.obj.numAdvected ≤ L.length := hL.advLe
    omega
  · intro i p hip
    refine ⟨?_, (hL.idx i p hip).2⟩
    have hpm : p ∈ m := hL.perm.mem_iff.1 (List.mem_of_getElem? hip)
    rw [hci, specLookup_self hm.names hpm (k := p.name) rfl]
    simp [metaIndex, (hL.idx i p hip).1]
  · intro k hk
    rw [hci]
    cases hs : specLookup key m k with
    | none => rfl
    | some p =>
      obtain ⟨h1, h2⟩ := specLookup_mem hs
      exact absurd h2 (hk p (hL.perm.mem_iff.2 h1))

/-- **C14**, when the lock succeeds: the object accepts metadata (is initialised and unlocked),
holds at least one constituent and every registered constituent is a layer variable; then
lock_table returns 0, the properties are locked and the registered constituents are the same. -/
theorem C14_lock_succeeds {zero : R} {cs : List (Call R)} {s : Sys R} (h : History zero cs s)
    (ho : (okayToAdd s.obj 0).1 = true)
    (hsome : ∃ k, (findConst s.obj k).isSome = true)
    (hlay : ∀ k p, findConst s.obj k = some p → isLayer p = true) :
    ∃ s', step zero s .lockTable = some (s', 0) ∧ (propsLocked s'.obj).1 = true ∧
      ∀ k, findConst s'.obj k = findConst s.obj k := by
  have hi := inv_history h
  cases ht : s.obj.table with
  | none => simp [okayToAdd, Obj.isInit, ht] at ho
  | some t =>
    have hl : s.obj.tableLocked = false := by
      simp only [okayToAdd, Obj.isInit, ht, propsLocked, Option.isSome_some, if_true] at ho
      cases hl : s.obj.tableLocked with
      | false => rfl
      | true => rw [hl] at ho; simp at ho
    obtain ⟨m, hm⟩ := hi.tab t ht
    have hf : ∀ k, findConst s.obj k = specLookup key m k := findConst_refines ht hm.ref
    have hall : ∀ p ∈ m, isLayer p = true := fun p hp =>
      hlay (key p) p (by rw [hf]; exact specLookup_self hm.names hp rfl)
    rcases lockTable_cases (h := s.heap) ht hm.ref hm.ids hl with
      ⟨hnil, _⟩ | ⟨hne, ⟨⟨q, hq, hq2⟩, _⟩ | ⟨_, hok⟩⟩
    · obtain ⟨k, hk⟩ := hsome
      rw [hf, hnil] at hk
      simp [specLookup] at hk
    · rw [hall q hq] at hq2; simp at hq2
    · have hcn : ∀ p ∈ m, (s.heap p.id).constInd = none := by
        rcases hm.opened hl with h | ⟨q, hq, hq2⟩
        · exact h
        · rw [hall q hq] at hq2; simp at hq2
      obtain ⟨h', na, L, hperm, hd, hidx, hna, _, _⟩ := hok hcn
      refine ⟨_, by simp only [step]; rw [hd], ?_, ?_⟩
      · simp [propsLocked, Obj.isInit, reset, ht]
      · intro k; simp [findConst, reset]

/-- **C14**, when it fails: an unlocked object with a constituent which is not a layer variable
is not locked and the caller gets an error. -/
theorem C14_lock_fails {zero : R} {cs : List (Call R)} {s : Sys R} (h : History zero cs s)
    (ho : (okayToAdd s.obj 0).1 = true)
    (hbad : ∃ k p, findConst s.obj k = some p ∧ isLayer p = false) :
    ∃ s' e, step zero s .lockTable = some (s', e) ∧ e ≠ 0 ∧ (propsLocked s'.obj).1 = false := by
  have hi := inv_history h
  cases ht : s.obj.table with
  | none => simp [okayToAdd, Obj.isInit, ht] at ho
  | some t =>
    have hl : s.obj.tableLocked = false := by
      simp only [okayToAdd, Obj.isInit, ht, propsLocked, Option.isSome_some, if_true] at ho
      cases hl : s.obj.tableLocked with
      | false => rfl
      | true => rw [hl] at ho; simp at ho
    obtain ⟨m, hm⟩ := hi.tab t ht
    obtain ⟨k, p, hp, hp2⟩ := hbad
    rw [findConst_refines ht hm.ref] at hp
    have hpm := (specLookup_mem hp).1
    rcases lockTable_cases (h := s.heap) ht hm.ref hm.ids hl with
      ⟨hnil, _⟩ | ⟨hne, ⟨_, h', metas, na, e, hd, hE, _⟩ | ⟨hall, _⟩⟩
    · rw [hnil] at hpm; simp at hpm
    · exact ⟨_, e, by simp only [step]; rw [hd], hE, by
        simp [propsLocked, Obj.isInit, reset, hl, ht]⟩
    · rw [hall p hpm] at hp2; simp at hp2

/-- A history used as a non-trivial instance: three constituents, locked properties and data. -/
def demoCalls : List (Call Int) :=
  [.init 3, .add "qv".toList "kg kg-1".toList "vertical_layer_dimension".toList false false true 7 1,
   .add "qc".toList "kg kg-1".toList "vertical_layer_dimension".toList true false false 8 2,
   .add "o3".toList "kg kg-1".toList "vertical_layer_dimension".toList true true false 9 3,
   .lockTable, .lockData 5]

/-- Running calls. -/
def runCalls (zero : R) (s : Sys R) : List (Call R) → Option (Sys R × List Int)
  | [] => some (s, [])
  | c :: cs => match step zero s c with
    | none => none
    | some (s', e) => match runCalls zero s' cs with
      | none => none
      | some (s'', es) => some (s'', e :: es)

/-- The state after the registrations of the demo. -/
def sys0 : Sys Int := { heap := fun _ => ⟨none, false, false, 0⟩, next := 0, obj := fresh }

def demoSys : Sys Int :=
  match runCalls 0 sys0 (demoCalls.take 4) with | some r => r.1 | none => sys0

theorem history_run {zero : R} {cs0 : List (Call R)} {s s' : Sys R} {cs : List (Call R)}
    {es : List Int} (h : History zero cs0 s) (hr : runCalls zero s cs = some (s', es))
    (hk : ∀ k, Call.init k ∈ cs → 0 ≤ k) : History zero (cs0 ++ cs) s' := by
  induction cs generalizing s cs0 es with
  | nil =>
    simp only [runCalls, Option.some.injEq, Prod.mk.injEq] at hr
    rw [← hr.1]; simpa using h
  | cons c cs ih =>
    simp only [runCalls] at hr
    cases hs : step zero s c with
    | none => rw [hs] at hr; simp at hr
    | some r =>
      obtain ⟨s1, e⟩ := r
      rw [hs] at hr
      simp only at hr
      cases hr2 : runCalls zero s1 cs with
      | none => rw [hr2] at hr; simp at hr
      | some r2 =>
        obtain ⟨s2, es2⟩ := r2
        rw [hr2] at hr
        simp only [Option.some.injEq, Prod.mk.injEq] at hr
        obtain ⟨rfl, rfl⟩ := hr
        have := ih (History.snoc h hs (fun k hk' => hk k (by simp [hk']))) hr2
          (fun k hk' => hk k (by simp [hk']))
        simpa using this

example : (runCalls 0 sys0 demoCalls).map (fun r => (r.2, (locked r.1.obj).1,
    (constIndex r.1.heap r.1.obj "qv".toList).1, (constIndex r.1.heap r.1.obj "qc ".toList).1,
    (constIndex r.1.heap r.1.obj "o3".toList).1)) =
    some ([0, 0, 0, 0, 0, 0], true, 3, 2, 1) := by decide

/-- **C14 is violated** when a constituent's index was set before the lock (`set_const_index` is
public, and an object shared by two registries has one): the "already set" error is overwritten by
the next constituent, lock_table returns 0 and locks, and the reported index is not the position
of the metadata. -/
theorem C14_preset_index_violated :
    ∃ (h : Heap Int) (o : Obj Int) (h' : Heap Int) (o' : Obj Int),
      (okayToAdd o 0).1 = true ∧ lockTable h o = .done h' o' 0 ∧ (propsLocked o').1 = true ∧
      ∃ p, (o'.metadata.getD [])[0]? = some (some p) ∧ (constIndex h' o' p.name).1 = 99 := by
  let cs : List (Call Int) := demoCalls.take 4
  let s : Sys Int := match runCalls 0 sys0 cs with | some r => r.1 | none => sys0
  let h1 : Heap Int := fun j => if j = 2 then ⟨some 99, false, false, 0⟩ else s.heap j
  have hd : (match lockTable h1 s.obj with
    | .done h' o' e => (e == 0) && (propsLocked o').1 &&
      (match (o'.metadata.getD [])[0]? with
        | some (some p) => (constIndex h' o' p.name).1 == 99 | _ => false)
    | .crash => false) = true := by decide
  cases hL : lockTable h1 s.obj with
  | crash => rw [hL] at hd; simp at hd
  | done h' o' e =>
    rw [hL] at hd
    simp only [Bool.and_eq_true, beq_iff_eq] at hd
    obtain ⟨⟨he, hp⟩, hx⟩ := hd
    subst he
    refine ⟨h1, s.obj, h', o', by decide, hL, hp, ?_⟩
    split at hx
    · rename_i p hp2
      exact ⟨p, hp2, by simpa using hx⟩
    · simp at hx

/-! ## C15 -/

theorem trace_inv {zero : R} {s : Sys R} {ph : Phase} (h : Trace zero s ph) : Inv s := by
  induction h with
  | start h => exact inv_fresh h
  | step _ hs hk _ ih => exact inv_step ih hs hk

/-- The phase as recorded in the object. -/
def PhaseOf (o : Obj R) : Phase → Prop
  | .new => o.table = none ∧ o.dataLocked = false
  | .opened => (∃ t, o.table = some t) ∧ o.tableLocked = false ∧ o.dataLocked = false
  | .propsLocked => (∃ t, o.table = some t) ∧ o.tableLocked = true ∧ o.dataLocked = false
  | .ready => (∃ t, o.table = some t) ∧ o.tableLocked = true ∧ o.dataLocked = true

theorem addMetadata_flags (h : Heap R) (o : Obj R) (p : Ptr R) (e0 : Int) :
    (addMetadata h o p e0).1.tableLocked = o.tableLocked ∧
    (addMetadata h o p e0).1.dataLocked = o.dataLocked ∧
    ((addMetadata h o p e0).1.table.isSome = o.table.isSome) := by
  unfold addMetadata
  repeat' split
  all_goals first | exact ⟨rfl, rfl, rfl⟩ | simp_all

theorem copyOut_flags (h : Heap R) (o : Obj R) (sel : Sel) (a : Arr R) :
    (copyOut h o sel a).1 = { o with varsLayer := (copyOut h o sel a).1.varsLayer } := by
  unfold copyOut
  repeat' split
  all_goals rfl

theorem phaseOf_congr {o o' : Obj R} (ph : Phase) (h1 : o'.table.isSome = o.table.isSome)
    (h2 : o'.tableLocked = o.tableLocked) (h3 : o'.dataLocked = o.dataLocked)
    (h : PhaseOf o ph) : PhaseOf o' ph := by
  have hs : (∃ t, o.table = some t) → ∃ t, o'.table = some t := by
    rintro ⟨t, ht⟩
    rw [ht] at h1
    exact Option.isSome_iff_exists.1 (by simpa using h1)
  cases ph with
  | new =>
    refine ⟨?_, by rw [h3]; exact h.2⟩
    rw [h.1] at h1
    cases h4 : o'.table with
    | none => rfl
    | some t => rw [h4] at h1; simp at h1
  | opened => exact ⟨hs h.1, by rw [h2]; exact h.2.1, by rw [h3]; exact h.2.2⟩
  | propsLocked => exact ⟨hs h.1, by rw [h2]; exact h.2.1, by rw [h3]; exact h.2.2⟩
  | ready => exact ⟨hs h.1, by rw [h2]; exact h.2.1, by rw [h3]; exact h.2.2⟩

theorem trace_phase {zero : R} {s : Sys R} {ph : Phase} (h : Trace zero s ph) :
    PhaseOf s.obj ph := by
  induction h with
  | start h => simp [PhaseOf, fresh]
  | @step s ph c s' e htr hs hk hr ih =>
    have hi := trace_inv htr
    cases c with
    | init k =>
      simp only [step, Option.some.injEq, Prod.mk.injEq] at hs
      obtain ⟨rfl, rfl⟩ := hs
      have hd : s.obj.dataLocked = false := by
        cases ph with
        | ready => exact absurd rfl ((hr rfl).2 k)
        | new => exact ih.2
        | opened => exact ih.2.2
        | propsLocked => exact ih.2.2
      simp [nextPhase, PhaseOf, initObj, reset, hd]
    | reset =>
      simp only [step, Option.some.injEq, Prod.mk.injEq] at hs
      obtain ⟨rfl, rfl⟩ := hs
      have hd : s.obj.dataLocked = false := by
        cases ph with
        | ready => exact absurd rfl (hr rfl).1
        | new => exact ih.2
        | opened => exact ih.2.2
        | propsLocked => exact ih.2.2
      simp [nextPhase, PhaseOf, reset, hd]
    | add name units vd ad th wa d mn =>
      simp only [step, Option.some.injEq, Prod.mk.injEq] at hs
      obtain ⟨rfl, rfl⟩ := hs
      have hf := addMetadata_flags (fun j => if j = s.next then
        ({ constInd := none, thermo := th, water := wa, minVal := mn } : Mut R) else s.heap j)
        s.obj (newPtr s.next name units vd ad d) 0
      exact phaseOf_congr ph hf.2.2 hf.1 hf.2.1 ih
    | copyOut sel a =>
      simp only [step, Option.some.injEq, Prod.mk.injEq] at hs
      obtain ⟨rfl, rfl⟩ := hs
      have hf := copyOut_flags s.heap s.obj sel a
      exact phaseOf_congr ph (by rw [hf]) (by rw [hf]) (by rw [hf]) ih
    | setThermo id b =>
      simp only [step, Option.some.injEq, Prod.mk.injEq] at hs
      obtain ⟨rfl, rfl⟩ := hs
      exact ih
    | setWater id b =>
      simp only [step, Option.some.injEq, Prod.mk.injEq] at hs
      obtain ⟨rfl, rfl⟩ := hs
      exact ih
    | setMinimum id b =>
      simp only [step, Option.some.injEq, Prod.mk.injEq] at hs
      obtain ⟨rfl, rfl⟩ := hs
      exact ih
    | lockData nl =>
      simp only [step, Option.some.injEq, Prod.mk.injEq] at hs
      obtain ⟨rfl, rfl⟩ := hs
      cases ph with
      | new =>
        have : (lockData zero s.heap s.obj nl).1 = s.obj := by
          simp [lockData, dataLocked, propsLocked, Obj.isInit, ih.1]
        simp only [nextPhase, reduceCtorEq, false_and, if_false]
        rw [this]; exact ih
      | opened =>
        obtain ⟨⟨t, ht⟩, hl, hd⟩ := ih
        have : (lockData zero s.heap s.obj nl).1 = s.obj := by
          simp [lockData, dataLocked, propsLocked, Obj.isInit, ht, hl, hd]
        simp only [nextPhase, reduceCtorEq, false_and, if_false]
        rw [this]; exact ⟨⟨t, ht⟩, hl, hd⟩
      | ready =>
        obtain ⟨⟨t, ht⟩, hl, hd⟩ := ih
        have : (lockData zero s.heap s.obj nl).1 = s.obj := by
          simp [lockData, dataLocked, Obj.isInit, ht, hd]
        simp only [nextPhase, reduceCtorEq, false_and, if_false]
        rw [this]; exact ⟨⟨t, ht⟩, hl, hd⟩
      | propsLocked =>
        obtain ⟨⟨t, ht⟩, hl, hd⟩ := ih
        obtain ⟨m, hm⟩ := hi.tab t ht
        obtain ⟨L, hL⟩ := hm.lock hl
        have hv := hi.data hd
        simp [nextPhase, lockData, dataLocked, propsLocked, Obj.isInit, ht, hl, hd, hv.1, hv.2.1,
          hv.2.2, hL.metas, PhaseOf]
    | lockTable =>
      simp only [step] at hs
      cases hL : lockTable s.heap s.obj with
      | crash => rw [hL] at hs; simp at hs
      | done h1 o1 e1 =>
        rw [hL] at hs
        simp only [Option.some.injEq, Prod.mk.injEq] at hs
        obtain ⟨rfl, rfl⟩ := hs
        cases ph with
        | new =>
          simp [lockTable, propsLocked, Obj.isInit, ih.1] at hL
        | propsLocked =>
          obtain ⟨⟨t, ht⟩, hl, hd⟩ := ih
          simp only [lockTable, propsLocked, Obj.isInit, ht, hl, Option.isSome_some, if_true,
            Outcome.done.injEq] at hL
          obtain ⟨_, rfl, _⟩ := hL
          simp only [nextPhase, reduceCtorEq, false_and, if_false]
          exact ⟨⟨t, ht⟩, hl, hd⟩
        | ready =>
          obtain ⟨⟨t, ht⟩, hl, hd⟩ := ih
          simp only [lockTable, propsLocked, Obj.isInit, ht, hl, Option.isSome_some, if_true,
            Outcome.done.injEq] at hL
          obtain ⟨_, rfl, _⟩ := hL
          simp only [nextPhase, reduceCtorEq, false_and, if_false]
          exact ⟨⟨t, ht⟩, hl, hd⟩
        | opened =>
          obtain ⟨⟨t, ht⟩, hl, hd⟩ := ih
          obtain ⟨m, hm⟩ := hi.tab t ht
          rcases lockTable_cases (h := s.heap) ht hm.ref hm.ids hl with
            ⟨_, hc⟩ | ⟨hne, ⟨hbad, h', metas, na, e, hd', he, hfr⟩ | ⟨hall, hok⟩⟩
          · rw [hc] at hL; simp at hL
          · rw [hd'] at hL
            simp only [Outcome.done.injEq] at hL
            obtain ⟨rfl, rfl, rfl⟩ := hL
            simp [nextPhase, he, PhaseOf, reset, ht, hl, hd]
          · have hcn : ∀ p ∈ m, (s.heap p.id).constInd = none := by
              rcases hm.opened hl with h | ⟨q, hq, hq2⟩
              · exact h
              · rw [hall q hq] at hq2; simp at hq2
            obtain ⟨h', na, L, hperm, hd', _⟩ := hok hcn
            rw [hd'] at hL
            simp only [Outcome.done.injEq] at hL
            obtain ⟨rfl, rfl, rfl⟩ := hL
            simp [nextPhase, PhaseOf, reset, ht, hd]

/-- **C15** (partial: the object is not reset once its data exists, and lock_table is not called
before initialize; see C18 and `C15_violated`).  In every history the queries answer according to
the life-cycle phase, and a call which the life cycle does not allow in the current phase leaves
the object unchanged and returns an error code (`copy_out`: does nothing). -/
theorem C15_lifecycle_partial {zero : R} {s : Sys R} {ph : Phase} (h : Trace zero s ph) :
    ((okayToAdd s.obj 0).1 = true ↔ ph = .opened) ∧
    ((propsLocked s.obj).1 = true ↔ ph = .propsLocked ∨ ph = .ready) ∧
    ((dataLocked s.obj).1 = true ↔ ph = .ready) ∧
    ((locked s.obj).1 = true ↔ ph = .ready) ∧
    ∀ c : Call R, allowed ph c = false → (c = .lockTable → ph ≠ .new) →
      ∃ s' e, step zero s c = some (s', e) ∧ s'.obj = s.obj ∧ (∀ id, id < s.next →
        s'.heap id = s.heap id) ∧ (silent c = false → e ≠ 0) := by
  have hph := trace_phase h
  have q : ((okayToAdd s.obj 0).1 = true ↔ ph = .opened) ∧
    ((propsLocked s.obj).1 = true ↔ ph = .propsLocked ∨ ph = .ready) ∧
    ((dataLocked s.obj).1 = true ↔ ph = .ready) ∧
    ((locked s.obj).1 = true ↔ ph = .ready) := by
    cases ph with
    | new =>
      simp [okayToAdd, propsLocked, dataLocked, locked, Obj.isInit, hph.1]
    | opened =>
      obtain ⟨⟨t, ht⟩, hl, hd⟩ := hph
      simp [okayToAdd, propsLocked, dataLocked, locked, Obj.isInit, ht, hl, hd]
    | propsLocked =>
      obtain ⟨⟨t, ht⟩, hl, hd⟩ := hph
      simp [okayToAdd, propsLocked, dataLocked, locked, Obj.isInit, ht, hl, hd]
    | ready =>
      obtain ⟨⟨t, ht⟩, hl, hd⟩ := hph
      simp [okayToAdd, propsLocked, dataLocked, locked, Obj.isInit, ht, hl, hd]
  refine ⟨q.1, q.2.1, q.2.2.1, q.2.2.2, ?_⟩
  intro c ha hnew
  cases c with
  | init k => simp [allowed] at ha
  | reset => simp [allowed] at ha
  | setThermo id b => simp [allowed] at ha
  | setWater id b => simp [allowed] at ha
  | setMinimum id b => simp [allowed] at ha
  | add name units vd ad th wa d mn =>
    have hno : (okayToAdd s.obj 0).1 = false := by
      cases ho : (okayToAdd s.obj 0).1 with
      | false => rfl
      | true => rw [q.1.1 ho] at ha; simp [allowed] at ha
    have hpos : 0 < (okayToAdd s.obj 0).2 := by
      unfold okayToAdd at hno ⊢
      split
      · rename_i h1
        rw [if_pos h1] at hno
        split
        · simp
        · rename_i h2; rw [if_neg h2] at hno; simp at hno
      · simp
    have hr : ∀ hp p, addMetadata hp s.obj p 0 = (s.obj, (okayToAdd s.obj 0).2 + 1) := by
      intro hp p
      unfold addMetadata
      have : okayToAdd s.obj 0 = (false, (okayToAdd s.obj 0).2) := Prod.ext hno rfl
      rw [this]
    refine ⟨_, _, rfl, by simp [hr], ?_, ?_⟩
    · intro id hid; simp only; rw [if_neg (by omega)]
    · intro _; rw [hr]; simp only; omega
  | lockTable =>
    have hno : ph = .propsLocked ∨ ph = .ready := by
      cases ph <;> simp_all [allowed]
    have hpl := q.2.1.2 hno
    obtain ⟨t, ht, hl⟩ := locked_table hpl
    refine ⟨s, 1, ?_, rfl, fun _ _ => rfl, by simp⟩
    simp [step, lockTable, propsLocked, Obj.isInit, ht, hl]
  | lockData nl =>
    have : (lockData zero s.heap s.obj nl).1 = s.obj ∧ (lockData zero s.heap s.obj nl).2 ≠ 0 := by
      cases ph with
      | new => simp [lockData, dataLocked, propsLocked, Obj.isInit, hph.1]
      | opened =>
        obtain ⟨⟨t, ht⟩, hl, hd⟩ := hph
        simp [lockData, dataLocked, propsLocked, Obj.isInit, ht, hl, hd]
      | propsLocked => simp [allowed] at ha
      | ready =>
        obtain ⟨⟨t, ht⟩, hl, hd⟩ := hph
        simp [lockData, dataLocked, Obj.isInit, ht, hd]
    exact ⟨_, _, rfl, this.1, fun _ _ => rfl, fun _ => this.2⟩
  | copyOut sel a =>
    have hno : (locked s.obj).1 = false := by
      cases hb : (locked s.obj).1 with
      | false => rfl
      | true => rw [q.2.2.2.1 hb] at ha; simp [allowed] at ha
    refine ⟨_, _, rfl, ?_, fun _ _ => rfl, by simp [silent]⟩
    simp [copyOut, hno]

/-- **C15**, allowed calls: creating the field data in its phase succeeds and moves to the last
phase, with every field equal to the default value of its constituent. -/
theorem C15_lock_data {zero : R} {s : Sys R} (h : Trace zero s .propsLocked) (nl : Int) :
    ∃ s', step zero s (.lockData nl) = some (s', 0) ∧ (locked s'.obj).1 = true ∧
      s'.heap = s.heap ∧ s'.obj.metadata = s.obj.metadata ∧ s'.obj.numLayers = nl ∧
      ∃ L : List (Ptr R), s.obj.metadata = some (L.map some) ∧
        s'.obj.varsLayer = some (L.map (fun p => fun _ _ => p.default)) ∧
        s'.obj.varsMin = some (L.map (fun p => (s.heap p.id).minVal)) ∧
        s'.obj.varsTend = some (L.map (fun _ => fun _ _ => zero)) := by
  have hi := trace_inv h
  obtain ⟨⟨t, ht⟩, hl, hd⟩ := trace_phase h
  obtain ⟨m, hm⟩ := hi.tab t ht
  obtain ⟨L, hL⟩ := hm.lock hl
  have hv := hi.data hd
  have hn : numValues t = L.length := by rw [hL.perm.length_eq]; exact hm.ref.num
  have htk : (L.map some).take (numValues t) = L.map some :=
    List.take_of_length_le (by simp [hn])
  refine ⟨{ s with obj := { s.obj with
      varsTend := some (L.map (fun _ => fun _ _ => zero)), numLayers := nl,
      varsLayer := some (L.map (fun p => fun _ _ => p.default)),
      varsMin := some (L.map (fun p => (s.heap p.id).minVal)), dataLocked := true } },
    ?_, ?_, rfl, rfl, rfl, L, hL.metas, rfl, rfl, rfl⟩
  · simp only [step, lockData, dataLocked, propsLocked, Obj.isInit, ht, hl, hd, hv.1, hv.2.1,
      hv.2.2, hL.metas, htk, Option.isSome_some, if_true, Bool.false_eq_true, if_false,
      Bool.not_true, Option.isSome_none, Bool.or_self, List.map_map, Function.comp_def]
    rw [hn, ← List.map_const']
  · simp [locked, Obj.isInit, ht, hl]

example : ∃ s, Trace (0 : Int) s .propsLocked := by
  have t0 : Trace (0 : Int) sys0 .new := .start _
  have t1 := Trace.step (c := .init 3) t0 rfl (by intro k h; cases h; decide) (by simp)
  have t2 := Trace.step (c := .add "qv".toList "kg kg-1".toList "vertical_layer_dimension".toList
    false false true 7 1) t1 rfl (by simp) (by simp)
  have t3 := Trace.step (c := .lockTable) t2 rfl (by simp) (by simp)
  exact ⟨_, t3⟩

/-- **C15 is violated** by lock_table on an object which was never initialised (or was reset): it
is not rejected but starts an iterator on a table that does not exist.  Every heap. -/
theorem C15_violated (zero : R) (s : Sys R) (h : s.obj.table = none) :
    step zero s .lockTable = none := by
  simp [step, lockTable, propsLocked, Obj.isInit, h]

example (h : Heap Int) : Trace (0 : Int) { heap := h, next := 0, obj := fresh } .new ∧
    (fresh : Obj Int).table = none := ⟨.start h, rfl⟩

/-! ## C16 -/

/-- The attributes compared on re-registration. -/
def SameAttrs (h : Heap R) (p q : Ptr R) : Prop :=
  p.advected = q.advected ∧ (h p.id).thermo = (h q.id).thermo ∧ (h p.id).water = (h q.id).water ∧
  rtrim p.units = rtrim q.units

theorem propsMatch_iff {h : Heap R} {p q : Ptr R} (hp : p.units.length ≤ 256)
    (hq : q.units.length ≤ 256) : propsMatch h p q = true ↔ SameAttrs h p q := by
  unfold propsMatch SameAttrs fit stdnameLen
  rw [List.take_of_length_le hp, List.take_of_length_le hq]
  simp [and_assoc]

/-- **C16** (partial: names and units of at most 256 characters).  Registering a constituent
whose standard name is already registered (up to trailing blanks) with the same attributes
returns 0 and changes nothing; with any attribute different it returns an error and changes
nothing. -/
theorem C16_reregister_partial (h : Heap R) (o : Obj R) (p q : Ptr R) (e0 : Int)
    (ho : (okayToAdd o e0).1 = true) (hf : findConst o p.name = some q)
    (hn : p.name.length ≤ 256) (hu : p.units.length ≤ 256) (hu' : q.units.length ≤ 256) :
    (SameAttrs h q p → addMetadata h o p e0 = (o, 0)) ∧
    (¬ SameAttrs h q p → (addMetadata h o p e0).1 = o ∧ (addMetadata h o p e0).2 ≠ 0) := by
  have h1 : okayToAdd o e0 = (true, (okayToAdd o e0).2) := Prod.ext ho rfl
  have h2 : fit stdnameLen p.name = p.name := List.take_of_length_le hn
  have hpm := propsMatch_iff (h := h) hu' hu
  constructor
  · intro hs
    unfold addMetadata
    rw [h1, h2, hf]
    simp [hpm.2 hs]
  · intro hs
    have : propsMatch h q p = false := by
      cases hb : propsMatch h q p with
      | false => rfl
      | true => exact absurd (hpm.1 hb) hs
    unfold addMetadata
    rw [h1, h2, hf]
    simp [this]

/-- **C16**, new names: a constituent whose name is not registered is added and reported as
success; afterwards its name finds it and every other name finds what it found before. -/
theorem C16_new_name {zero : R} {cs : List (Call R)} {s : Sys R} (h : History zero cs s)
    (hp : Heap R) (p : Ptr R) (ho : (okayToAdd s.obj 0).1 = true)
    (hf : findConst s.obj p.name = none) (hn : p.name.length ≤ 256) :
    (addMetadata hp s.obj p 0).2 = 0 ∧
    ∀ k, findConst (addMetadata hp s.obj p 0).1 k =
      if rtrim k = rtrim p.name then some p else findConst s.obj k := by
  have hi := inv_history h
  have h1 : okayToAdd s.obj 0 = (true, (okayToAdd s.obj 0).2) := Prod.ext ho rfl
  have h2 : fit stdnameLen p.name = p.name := List.take_of_length_le hn
  cases ht : s.obj.table with
  | none => simp [okayToAdd, Obj.isInit, ht] at ho
  | some t =>
    obtain ⟨m, hm⟩ := hi.tab t ht
    have hfr : ∀ k, findConst s.obj k = specLookup key m k := findConst_refines ht hm.ref
    rw [hfr] at hf
    obtain ⟨ha, hb, _⟩ := add_refines hm.ref p
    have hany : m.any (fun w => decide (SameKey (key w) (key p))) = false := by
      rw [any_iff_lookup]; unfold key at *; rw [hf]; rfl
    rw [hany] at hb
    unfold specAdd at ha
    rw [hany] at ha
    simp only [Bool.false_eq_true, if_false] at ha hb
    have hadd : add key t p = ((add key t p).1, none) := Prod.ext rfl hb
    have hres : ∃ n, addMetadata hp s.obj p 0 =
        ({ s.obj with table := some (add key t p).1, numLayerVars := n }, 0) := by
      unfold addMetadata
      rw [h1, h2, hfr, hf]
      simp only [ht]
      rw [hadd]
      simp only
      split
      · exact ⟨_, rfl⟩
      · exact ⟨s.obj.numLayerVars, rfl⟩
    obtain ⟨n, hres⟩ := hres
    rw [hres]
    refine ⟨rfl, fun k => ?_⟩
    rw [findConst_refines (t := (add key t p).1) rfl ha, hfr]
    unfold specLookup
    rw [List.find?_append]
    by_cases hk : rtrim k = rtrim p.name
    · rw [if_pos hk]
      have : List.find? (fun w => decide (SameKey (key w) k)) m = none := by
        have e : (fun w : Ptr R => decide (SameKey (key w) k)) =
            fun w => decide (SameKey (key w) p.name) := by
          funext w; exact decide_eq_decide.2 (by unfold SameKey; rw [hk])
        rw [e]; exact hf
      rw [this]
      simp [SameKey, key, hk]
    · rw [if_neg hk]
      have : ¬ SameKey (key p) k := fun e => hk (Eq.symm e)
      simp [this]

example : ∃ (s : Sys Int) (p q : Ptr Int), (okayToAdd s.obj 0).1 = true ∧
    findConst s.obj p.name = some q ∧ SameAttrs s.heap q p ∧ p.id ≠ q.id ∧
    p.name.length ≤ 256 ∧ p.units.length ≤ 256 ∧ q.units.length ≤ 256 :=
  ⟨demoSys, newPtr 7 "qc".toList "kg kg-1".toList [] true 0, _, by decide, rfl, by
    unfold SameAttrs; decide, by decide, by decide, by decide, by decide⟩

/-- **C16 is violated** for names longer than 256 characters: the lookup uses the truncated name,
so registering the very same constituent again is reported as an error. -/
theorem C16_long_name_violated (h : Heap R) (o : Obj R) (p : Ptr R) (e0 : Int)
    (ho : (okayToAdd o e0).1 = true) (hf : findConst o p.name = some p)
    (hlong : findConst o (fit stdnameLen p.name) = none) :
    (addMetadata h o p e0).2 ≠ 0 := by
  have h1 : okayToAdd o e0 = (true, (okayToAdd o e0).2) := Prod.ext ho rfl
  unfold addMetadata
  rw [h1, hlong]
  simp only
  cases ht : o.table with
  | none => simp [findConst, ht] at hf
  | some t =>
    simp only
    have hv : ∃ q, tableValue key t (key p) = .ok q := by
      unfold findConst at hf
      rw [ht] at hf
      simp only at hf
      cases hv : tableValue key t p.name with
      | ok q => exact ⟨q, hv⟩
      | error _ => rw [hv] at hf; simp at hf
    obtain ⟨q, hv⟩ := hv
    have : (add key t p).2 ≠ none := by
      unfold add
      simp only [hv]
      split <;> simp
    rcases hadd : add key t p with ⟨t', e⟩
    rw [hadd] at this
    cases e with
    | none => simp at this
    | some e => simp

/-! ## C17 -/

/-- What the copy loops need of the rest of const_metadata. -/
structure CopyOk (h : Heap R) (i : Nat) (L : List (Ptr R)) : Prop where
  idx : ∀ (j : Nat) (p : Ptr R), L[j]? = some p → (h p.id).constInd = some ((i : Int) + j + 1)
  layer : ∀ p ∈ L, isLayer p = true

theorem CopyOk.tail {h : Heap R} {i : Nat} {p : Ptr R} {L : List (Ptr R)}
    (hc : CopyOk h i (p :: L)) : CopyOk h (i + 1) L := by
  refine ⟨fun j q hq => ?_, fun q hq => hc.layer q (by simp [hq])⟩
  have := hc.idx (j + 1) q (by simpa using hq)
  rw [this]; congr 1; omega

/-- Number of selected constituents. -/
def nsel (h : Heap R) (sel : Sel) (L : List (Ptr R)) : Nat :=
  (L.filter (fun p => selMatch h sel (some p))).length

theorem copy_roundtrip (h : Heap R) (sel : Sel) (nl : Int) (L : List (Ptr R)) :
    ∀ (i c : Nat) (vars : List (Slice R)) (a b : Arr R), CopyOk h i L → a.levels = nl →
    b.levels = nl → c + nsel h sel L ≤ a.slices.length → c + nsel h sel L ≤ b.slices.length →
    i + L.length ≤ vars.length →
    ∃ vars' bs, copyOutLoop h sel nl a i c vars (L.map some) = (vars', 0) ∧
      (∀ j, j < i → vars'[j]? = vars[j]?) ∧
      copyInLoop h sel nl vars' i c b (L.map some) = ({ b with slices := bs }, 0) ∧
      bs.length = b.slices.length ∧
      (∀ k, bs[k]? = if c ≤ k ∧ k < c + nsel h sel L then a.slices[k]? else b.slices[k]?) := by
  induction L with
  | nil =>
    intro i c vars a b _ _ _ _ _ _
    refine ⟨vars, b.slices, rfl, fun _ _ => rfl, rfl, rfl, fun k => ?_⟩
    rw [if_neg (by simp [nsel])]
  | cons p L ih =>
    intro i c vars a b hc ha hb hla hlb hv
    subst hb
    have hidx : metaIndex h (some p) = (i : Int) + 1 := by
      have := hc.idx 0 p (by simp)
      simp [metaIndex, this]
    have hlay := hc.layer p (by simp)
    cases hs : selMatch h sel (some p) with
    | false =>
      have hn : nsel h sel (p :: L) = nsel h sel L := by simp [nsel, hs]
      rw [hn] at hla hlb ⊢
      simp only [List.length_cons] at hv
      obtain ⟨vars', bs, h1, h2, h3, h4, h5⟩ := ih (i + 1) c vars a b hc.tail ha rfl hla hlb
        (by omega)
      refine ⟨vars', bs, ?_, fun j hj => h2 j (by omega), ?_, h4, h5⟩
      · simp only [List.map_cons, copyOutLoop, hs, Bool.false_eq_true, if_false]; exact h1
      · simp only [List.map_cons, copyInLoop, hs, Bool.false_eq_true, if_false]; exact h3
    | true =>
      have hn : nsel h sel (p :: L) = nsel h sel L + 1 := by simp [nsel, hs]
      rw [hn] at hla hlb ⊢
      simp only [List.length_cons] at hv
      have hca : c < a.slices.length := by omega
      obtain ⟨vars', bs, h1, h2, h3, h4, h5⟩ := ih (i + 1) (c + 1)
        (vars.set i a.slices[c]) a { b with slices := b.slices.set c a.slices[c] } hc.tail ha rfl
        (by omega) (by simp; omega) (by simp; omega)
      have hvi : vars'[i]? = some a.slices[c] := by
        rw [h2 i (by omega), List.getElem?_set_self (by omega)]
      refine ⟨vars', bs, ?_, fun j hj => ?_, ?_, by simpa using h4, ?_⟩
      · simp only [List.map_cons, copyOutLoop, hs, if_true, List.getElem?_eq_getElem hca, hidx,
          ne_eq, not_true, if_false, hlay, ha]
        exact h1
      · rw [h2 j (by omega), List.getElem?_set_ne (by omega)]
      · simp only [List.map_cons, copyInLoop, hs, if_true, hidx, ne_eq, not_true, if_false, hlay,
          hvi]
        rw [if_neg (by omega)]
        exact h3
      · intro k
        rw [h5 k]
        simp only
        by_cases hk : k = c
        · subst hk
          rw [if_neg (by omega), if_pos (by omega), List.getElem?_set_self (by omega),
            List.getElem?_eq_getElem hca]
        · rw [List.getElem?_set_ne (fun e => hk e.symm)]
          by_cases hk2 : c + 1 ≤ k ∧ k < c + 1 + nsel h sel L
          · rw [if_pos hk2, if_pos (by omega)]
          · rw [if_neg hk2, if_neg (by omega)]

/-- copy_out touches only selected constituents. -/
theorem copyOutLoop_frame (h : Heap R) (sel : Sel) (nl : Int) (a : Arr R)
    (L : List (Option (Ptr R))) : ∀ (i c : Nat) (vars : List (Slice R)) (j : Nat),
    (j < i ∨ ∀ m, L[j - i]? = some m → selMatch h sel m = false) →
    (copyOutLoop h sel nl a i c vars L).1[j]? = vars[j]? := by
  induction L with
  | nil => intro i c vars j _; rfl
  | cons m L ih =>
    intro i c vars j hj
    have hnext : j < i + 1 ∨ ∀ m, L[j - (i + 1)]? = some m → selMatch h sel m = false := by
      rcases Nat.lt_or_ge j (i + 1) with h1 | h1
      · left; exact h1
      · right
        intro m' hm'
        rcases hj with h2 | h2
        · omega
        · apply h2 m'
          have e : j - i = j - (i + 1) + 1 := by omega
          rw [e]; simpa using hm'
    simp only [copyOutLoop]
    split
    · rename_i hs
      have hji : j ≠ i := by
        intro e
        subst e
        rcases hj with h2 | h2
        · omega
        · have := h2 m (by simp)
          rw [hs] at this; simp at this
      repeat' split
      all_goals first | rfl | skip
      all_goals
        rw [ih (i + 1) (c + 1) _ j hnext, List.getElem?_set_ne (fun e => hji e.symm)]
    · exact ih (i + 1) c vars j hnext

/-- copy_out with too few slices reports an error. -/
theorem copyOutLoop_short (h : Heap R) (sel : Sel) (nl : Int) (a : Arr R)
    (L : List (Option (Ptr R))) : ∀ (i c : Nat) (vars : List (Slice R)), c ≤ a.slices.length →
    a.slices.length < c + (L.filter (selMatch h sel)).length →
    (copyOutLoop h sel nl a i c vars L).2 ≠ 0 := by
  induction L with
  | nil => intro i c vars h0 h1; simp at h1; omega
  | cons m L ih =>
    intro i c vars h0 h1
    simp only [copyOutLoop]
    split
    · rename_i hs
      rw [List.filter_cons_of_pos hs, List.length_cons] at h1
      split
      · simp
      · rename_i f hf
        have := (List.getElem?_eq_some_iff.1 hf).1
        repeat' split
        all_goals first | simp; done | skip
        all_goals exact ih _ _ _ (by omega) (by omega)
    · rename_i hs
      rw [List.filter_cons_of_neg hs] at h1
      exact ih _ _ _ h0 h1

theorem copyInLoop_short (h : Heap R) (sel : Sel) (nl : Int) (vars : List (Slice R))
    (L : List (Option (Ptr R))) : ∀ (i c : Nat) (a : Arr R), c ≤ a.slices.length →
    a.slices.length < c + (L.filter (selMatch h sel)).length →
    (copyInLoop h sel nl vars i c a L).2 ≠ 0 := by
  induction L with
  | nil => intro i c vars h0 h1; simp at h1; omega
  | cons m L ih =>
    intro i c a h0 h1
    simp only [copyInLoop]
    split
    · rename_i hs
      rw [List.filter_cons_of_pos hs, List.length_cons] at h1
      split
      · simp
      · rename_i hf
        repeat' split
        all_goals first | simp; done | skip
        all_goals exact ih _ _ _ (by simp; omega) (by simp; omega)
    · rename_i hs
      rw [List.filter_cons_of_neg hs] at h1
      exact ih _ _ _ h0 h1

theorem ready_layout {zero : R} {cs : List (Call R)} {s : Sys R} (h : History zero cs s)
    (hl : (locked s.obj).1 = true) : ∃ L vs, s.obj.metadata = some (L.map some) ∧
      CopyOk s.heap 0 L ∧ s.obj.varsLayer = some vs ∧ vs.length = L.length ∧
      (propsLocked s.obj).1 = true := by
  have hi := inv_history h
  unfold locked Obj.isInit at hl
  cases ht : s.obj.table with
  | none => rw [ht] at hl; simp at hl
  | some t =>
    rw [ht] at hl
    simp only [Option.isSome_some, if_true, Bool.and_eq_true] at hl
    obtain ⟨m, hm⟩ := hi.tab t ht
    obtain ⟨L, hL⟩ := hm.lock hl.1
    obtain ⟨vs, h1, h2⟩ := hL.data hl.2
    refine ⟨L, vs, hL.metas, ⟨fun j p hp => ?_, hL.layer⟩, h1, h2, ?_⟩
    · rw [(hL.idx j p hp).1]; simp
    · simp [propsLocked, Obj.isInit, ht, hl.1]

theorem numMatch_nsel {s : Sys R} {L : List (Ptr R)} (hm : s.obj.metadata = some (L.map some))
    (hp : (propsLocked s.obj).1 = true) (sel : Sel) :
    (numMatch s.heap s.obj sel).1 = nsel s.heap sel L := by
  unfold numMatch nsel
  rw [hp, hm]
  simp only [if_true, Option.getD_some]
  rw [List.filter_map, List.length_map]
  rfl

theorem selMatch_iff (h : Heap R) (sel : Sel) (p : Ptr R) :
    selMatch h sel (some p) = decide (Selected h sel p) := by
  obtain ⟨sa, st, sw⟩ := sel
  rw [Bool.eq_iff_iff, decide_eq_true_iff]
  unfold Selected selMatch
  cases sa <;> cases st <;> cases sw <;> simp <;> grind

/-- What copy_in stores: the fields of the selected constituents in the order of their indices. -/
theorem copyInLoop_content (h : Heap R) (sel : Sel) (nl : Int) (vars : List (Slice R))
    (L : List (Ptr R)) : ∀ (i c : Nat) (vs : List (Slice R)) (b : Arr R), CopyOk h i L →
    b.levels = nl → vs.length = L.length → (∀ k, k < L.length → vars[i + k]? = vs[k]?) →
    b.slices.length = c + nsel h sel L →
    copyInLoop h sel nl vars i c b (L.map some) = ({ b with slices := b.slices.take c ++
      ((L.zip vs).filter (fun q => selMatch h sel (some q.1))).map (·.2) }, 0) := by
  induction L with
  | nil =>
    intro i c vs b _ _ _ _ hl
    have : b.slices.length = c := by simpa [nsel] using hl
    simp [copyInLoop, ← this]
  | cons p L ih =>
    intro i c vs b hc hb hvl hv hl
    subst hb
    have hidx : metaIndex h (some p) = (i : Int) + 1 := by
      have := hc.idx 0 p (by simp)
      simp [metaIndex, this]
    have hlay := hc.layer p (by simp)
    cases vs with
    | nil => simp at hvl
    | cons v vs =>
      have hvl' : vs.length = L.length := by simpa using hvl
      have hv' : ∀ k, k < L.length → vars[i + 1 + k]? = vs[k]? := by
        intro k hk
        have := hv (k + 1) (by simp; omega)
        rw [show i + 1 + k = i + (k + 1) by omega]
        simpa using this
      cases hs : selMatch h sel (some p) with
      | false =>
        have hn : nsel h sel (p :: L) = nsel h sel L := by simp [nsel, hs]
        rw [hn] at hl
        simp only [List.map_cons, copyInLoop, hs, Bool.false_eq_true, if_false]
        rw [ih (i + 1) c vs b hc.tail rfl hvl' hv' hl]
        simp [hs]
      | true =>
        have hn : nsel h sel (p :: L) = nsel h sel L + 1 := by simp [nsel, hs]
        rw [hn] at hl
        have hvi : vars[i]? = some v := by
          have := hv 0 (by simp)
          simpa using this
        simp only [List.map_cons, copyInLoop, hs, if_true, hidx, ne_eq, not_true, if_false, hlay, hvi]
        rw [if_neg (by omega)]
        rw [ih (i + 1) (c + 1) vs { b with slices := b.slices.set c v } hc.tail rfl hvl' hv'
          (by simp; omega)]
        have ht : (b.slices.set c v).take (c + 1) = b.slices.take c ++ [v] := by
          rw [List.take_add_one, List.getElem?_set_self (by omega), List.take_set_of_le (Nat.le_refl c)]
          rfl
        simp [hs, ht]

/-- **C17**, content: in every ready object `num_constituents(selection)` is the number of selected
constituents, and copy_in into an array of that size stores exactly the fields of the selected
constituents, in the order of their indices. -/
theorem C17_copy_in {zero : R} {cs : List (Call R)} {s : Sys R} (h : History zero cs s)
    (hl : (locked s.obj).1 = true) (sel : Sel) :
    ∃ (L : List (Ptr R)) (vs : List (Slice R)), s.obj.metadata = some (L.map some) ∧
      s.obj.varsLayer = some vs ∧ vs.length = L.length ∧
      numMatch s.heap s.obj sel = ((L.filter fun p => decide (Selected s.heap sel p)).length, 0) ∧
      ∀ b : Arr R, b.levels = s.obj.numLayers →
        b.slices.length = (L.filter fun p => decide (Selected s.heap sel p)).length →
        copyIn s.heap s.obj sel b =
          ({ b with slices := ((L.zip vs).filter fun q => decide (Selected s.heap sel q.1)).map (·.2) },
            0) := by
  obtain ⟨L, vs, hm, hok, hv, hlen, hp⟩ := ready_layout h hl
  have hn : (L.filter fun p => decide (Selected s.heap sel p)).length = nsel s.heap sel L := by
    unfold nsel; simp only [selMatch_iff]
  refine ⟨L, vs, hm, hv, hlen, ?_, fun b hb hlb => ?_⟩
  · have h1 := numMatch_nsel hm hp sel
    have h2 : (numMatch s.heap s.obj sel).2 = 0 := by
      unfold numMatch; rw [if_pos hp]
      unfold propsLocked Obj.isInit at hp ⊢
      cases ht : s.obj.table with
      | none => rw [ht] at hp; simp at hp
      | some t => simp
    rw [hn, ← h1, ← h2]
  · rw [hn] at hlb
    unfold copyIn
    rw [hl, hv, hm]
    simp only [if_true, Option.getD_some]
    rw [copyInLoop_content s.heap sel s.obj.numLayers vs L 0 0 vs b hok hb hlen
      (by intro k _; rw [Nat.zero_add]) (by rw [hlb]; omega)]
    simp [selMatch_iff]

/-- **C17**, levels: an array with another number of levels is refused by both directions, if any
constituent is selected. -/
theorem C17_levels {zero : R} {cs : List (Call R)} {s : Sys R} (h : History zero cs s)
    (hl : (locked s.obj).1 = true) (sel : Sel) (a : Arr R)
    (hn : 0 < (numMatch s.heap s.obj sel).1) (ha : a.levels ≠ s.obj.numLayers) :
    (copyOut s.heap s.obj sel a).2 ≠ 0 ∧ (copyIn s.heap s.obj sel a).2 ≠ 0 := by
  obtain ⟨L, vs, hm, hok, hv, hlen, hp⟩ := ready_layout h hl
  rw [numMatch_nsel hm hp] at hn
  have key1 : ∀ (L : List (Ptr R)) (i c : Nat) (vars : List (Slice R)), CopyOk s.heap i L →
      0 < nsel s.heap sel L → (copyOutLoop s.heap sel s.obj.numLayers a i c vars (L.map some)).2 ≠ 0 := by
    intro L
    induction L with
    | nil => intro i c vars _ h0; simp [nsel] at h0
    | cons p L ih =>
      intro i c vars hc h0
      cases hs : selMatch s.heap sel (some p) with
      | false =>
        simp only [List.map_cons, copyOutLoop, hs, Bool.false_eq_true, if_false]
        exact ih _ _ _ hc.tail (by simpa [nsel, hs] using h0)
      | true =>
        simp only [List.map_cons, copyOutLoop, hs, if_true]
        have hne : ¬ s.obj.numLayers = a.levels := fun e => ha e.symm
        repeat' split
        all_goals first | simp; done | contradiction
  have key2 : ∀ (L : List (Ptr R)) (i c : Nat) (b : Arr R), CopyOk s.heap i L → b.levels = a.levels →
      0 < nsel s.heap sel L → (copyInLoop s.heap sel s.obj.numLayers vs i c b (L.map some)).2 ≠ 0 := by
    intro L
    induction L with
    | nil => intro i c b _ _ h0; simp [nsel] at h0
    | cons p L ih =>
      intro i c b hc hb h0
      cases hs : selMatch s.heap sel (some p) with
      | false =>
        simp only [List.map_cons, copyInLoop, hs, Bool.false_eq_true, if_false]
        exact ih _ _ _ hc.tail hb (by simpa [nsel, hs] using h0)
      | true =>
        simp only [List.map_cons, copyInLoop, hs, if_true]
        have hne : ¬ s.obj.numLayers = b.levels := fun e => ha (by rw [← hb]; exact e.symm)
        repeat' split
        all_goals first | simp; done | contradiction
  constructor
  · unfold copyOut
    rw [hl, hv, hm]
    simp only [if_true, Option.getD_some]
    exact key1 L 0 0 vs hok hn
  · unfold copyIn
    rw [hl, hv, hm]
    simp only [if_true, Option.getD_some]
    exact key2 L 0 0 a hok rfl hn

/-- **C17**, inverse: in every ready object, for every selection and arrays with the right number
of levels and exactly `num_constituents(selection)` fields, copy_out of `a` succeeds and copy_in
with the same selection returns `a`. -/
theorem C17_inverse {zero : R} {cs : List (Call R)} {s : Sys R} (h : History zero cs s)
    (hl : (locked s.obj).1 = true) (sel : Sel) (a b : Arr R)
    (ha : a.levels = s.obj.numLayers) (hb : b.levels = s.obj.numLayers)
    (hla : a.slices.length = (numMatch s.heap s.obj sel).1)
    (hlb : b.slices.length = (numMatch s.heap s.obj sel).1) :
    (copyOut s.heap s.obj sel a).2 = 0 ∧
    copyIn s.heap (copyOut s.heap s.obj sel a).1 sel b = (a, 0) := by
  obtain ⟨L, vs, hm, hok, hv, hlen, hp⟩ := ready_layout h hl
  rw [numMatch_nsel hm hp] at hla hlb
  obtain ⟨vars', bs, h1, _, h3, h4, h5⟩ := copy_roundtrip s.heap sel s.obj.numLayers L 0 0 vs a b
    hok ha hb (by omega) (by omega) (by omega)
  have ho : copyOut s.heap s.obj sel a = ({ s.obj with varsLayer := some vars' }, 0) := by
    unfold copyOut
    rw [hl, hv, hm]
    simp [h1, hm]
  rw [ho]
  refine ⟨rfl, ?_⟩
  have hl' : (locked { s.obj with varsLayer := some vars' }).1 = true := hl
  unfold copyIn
  rw [hl', hm]
  simp only [if_true, Option.getD_some]
  rw [h3]
  have : bs = a.slices := by
    apply List.ext_getElem?
    intro k
    rw [h5 k]
    by_cases hk : k < nsel s.heap sel L
    · rw [if_pos (by omega)]
    · rw [if_neg (by omega), List.getElem?_eq_none (by omega), List.getElem?_eq_none (by omega)]
  cases a; cases b; simp_all

/-- **C17**, frame: whatever the array, copy_out leaves every constituent that is not selected,
and every part of the object other than the field data, unchanged. -/
theorem C17_frame (h : Heap R) (o : Obj R) (sel : Sel) (a : Arr R) :
    (copyOut h o sel a).1 = { o with varsLayer := (copyOut h o sel a).1.varsLayer } ∧
    ∀ (j : Nat) (p : Ptr R), (o.metadata.getD [])[j]? = some (some p) → ¬ Selected h sel p →
      ((copyOut h o sel a).1.varsLayer.getD [])[j]? = (o.varsLayer.getD [])[j]? := by
  refine ⟨copyOut_flags h o sel a, fun j p hj hs0 => ?_⟩
  have hs : selMatch h sel (some p) = false := by
    rw [selMatch_iff]; simpa using hs0
  unfold copyOut
  split
  · split
    · rename_i vars hv
      simp only [Option.getD_some, hv]
      apply copyOutLoop_frame
      right
      intro m' hm'
      rw [Nat.sub_zero, hj] at hm'
      simp only [Option.some.injEq] at hm'
      rw [← hm']; exact hs
    · rfl
  · rfl

/-- **C17**, count: an array with fewer fields than `num_constituents(selection)` is refused by
both directions. -/
theorem C17_too_small {zero : R} {cs : List (Call R)} {s : Sys R} (h : History zero cs s)
    (hl : (locked s.obj).1 = true) (sel : Sel) (a : Arr R)
    (hla : a.slices.length < (numMatch s.heap s.obj sel).1) :
    (copyOut s.heap s.obj sel a).2 ≠ 0 ∧ (copyIn s.heap s.obj sel a).2 ≠ 0 := by
  obtain ⟨L, vs, hm, hok, hv, hlen, hp⟩ := ready_layout h hl
  have hn : a.slices.length < ((L.map some).filter (selMatch s.heap sel)).length := by
    unfold numMatch at hla
    rw [hp, hm] at hla
    simpa using hla
  constructor
  · unfold copyOut
    rw [hl, hv, hm]
    simp only [if_true, Option.getD_some]
    exact copyOutLoop_short _ _ _ _ _ _ _ _ (by omega) (by omega)
  · unfold copyIn
    rw [hl, hv, hm]
    simp only [if_true, Option.getD_some]
    exact copyInLoop_short _ _ _ _ _ _ _ _ (by omega) (by omega)

/-- The state after the whole demo history. -/
def demoReady : Sys Int :=
  match runCalls 0 sys0 demoCalls with | some r => r.1 | none => sys0

theorem demo_history : History (0 : Int) demoCalls demoReady := by
  have hs : (runCalls 0 sys0 demoCalls).isSome = true := by decide
  cases hr : runCalls 0 sys0 demoCalls with
  | none => rw [hr] at hs; simp at hs
  | some r =>
    obtain ⟨s, es⟩ := r
    have := history_run (cs0 := []) (History.start (zero := (0 : Int)) sys0.heap) hr (by
      intro k hk
      simp only [demoCalls, List.mem_cons, Call.init.injEq, reduceCtorEq, List.not_mem_nil,
        or_false] at hk
      omega)
    rw [List.nil_append] at this
    unfold demoReady
    rw [hr]
    exact this

example : (locked demoReady.obj).1 = true ∧
    (numMatch demoReady.heap demoReady.obj ⟨some true, none, none⟩).1 = 2 ∧
    demoReady.obj.numLayers = 5 := by decide

/-! ## C18 -/

theorem lockTable_dataLocked {s : Sys R} (hi : Inv s) {h1 : Heap R} {o1 : Obj R} {e1 : Int}
    (hL : lockTable s.heap s.obj = .done h1 o1 e1) : o1.dataLocked = s.obj.dataLocked := by
  cases hpl : (propsLocked s.obj).1 with
  | true =>
    unfold lockTable at hL
    rw [hpl] at hL
    simp only [if_true, Outcome.done.injEq] at hL
    rw [← hL.2.1]
  | false =>
    cases ht : s.obj.table with
    | none =>
      unfold lockTable at hL
      rw [hpl, ht] at hL
      simp at hL
    | some t =>
      have hl : s.obj.tableLocked = false := by
        unfold propsLocked Obj.isInit at hpl; rw [ht] at hpl; simpa using hpl
      obtain ⟨m, hm⟩ := hi.tab t ht
      rcases lockTable_cases (h := s.heap) ht hm.ref hm.ids hl with
        ⟨_, hc⟩ | ⟨hne, ⟨hbad, h', metas, na, e, hd, _, hfr⟩ | ⟨hall, hok⟩⟩
      · rw [hc] at hL; simp at hL
      · rw [hd] at hL
        simp only [Outcome.done.injEq] at hL
        rw [← hL.2.1]; simp [reset]
      · have hcn : ∀ p ∈ m, (s.heap p.id).constInd = none := by
          rcases hm.opened hl with h | ⟨q, hq, hq2⟩
          · exact h
          · rw [hall q hq] at hq2; simp at hq2
        obtain ⟨h', na, L, hperm, hd, _⟩ := hok hcn
        rw [hd] at hL
        simp only [Outcome.done.injEq] at hL
        rw [← hL.2.1]; simp [reset]

theorem findConst_init (o : Obj R) (k : Int) (name : List Char) :
    findConst (initObj o k) name = none := by
  have : ∀ x, tableValue key (initTable (Ptr R) k none) name ≠ .ok x := by
    intro x
    unfold tableValue
    simp only
    split
    · simp
    · simp [initTable]
  simp only [findConst, initObj]
  cases h : tableValue key (initTable (Ptr R) k none) name with
  | ok x => exact absurd h (this x)
  | error _ => rfl

/-- **C18** (partial: the field data was never created).  After any history without lock_data,
reset and initialize give exactly the object that initialize gives from scratch. -/
theorem C18_reuse_partial {zero : R} {cs : List (Call R)} {s : Sys R} (h : History zero cs s)
    (hd : ∀ n, Call.lockData n ∉ cs) (k : Int) :
    ∃ s1 s2, step zero s .reset = some (s1, 0) ∧ step zero s1 (.init k) = some (s2, 0) ∧
      s2.obj = initObj fresh k ∧ (okayToAdd s2.obj 0).1 = true := by
  have hdl : s.obj.dataLocked = false := by
    clear k
    induction h with
    | start h => rfl
    | @snoc cs s c s' e hh hs hk ih =>
      have ih := ih (fun n hn => hd n (by simp [hn]))
      cases c with
      | lockData n => exact absurd (by simp) (hd n)
      | init k =>
        simp only [step, Option.some.injEq, Prod.mk.injEq] at hs
        rw [← hs.1]; simpa [initObj, reset] using ih
      | reset =>
        simp only [step, Option.some.injEq, Prod.mk.injEq] at hs
        rw [← hs.1]; simpa [reset] using ih
      | add name units vd ad th wa d mn =>
        simp only [step, Option.some.injEq, Prod.mk.injEq] at hs
        rw [← hs.1]
        simp only
        rw [(addMetadata_flags _ _ _ _).2.1]; exact ih
      | copyOut sel a =>
        simp only [step, Option.some.injEq, Prod.mk.injEq] at hs
        rw [← hs.1]
        simp only
        rw [copyOut_flags]; exact ih
      | setThermo id b =>
        simp only [step, Option.some.injEq, Prod.mk.injEq] at hs
        rw [← hs.1]; exact ih
      | setWater id b =>
        simp only [step, Option.some.injEq, Prod.mk.injEq] at hs
        rw [← hs.1]; exact ih
      | setMinimum id b =>
        simp only [step, Option.some.injEq, Prod.mk.injEq] at hs
        rw [← hs.1]; exact ih
      | lockTable =>
        simp only [step] at hs
        cases hL : lockTable s.heap s.obj with
        | crash => rw [hL] at hs; simp at hs
        | done h1 o1 e1 =>
          rw [hL] at hs
          simp only [Option.some.injEq, Prod.mk.injEq] at hs
          rw [← hs.1]
          simp only
          rw [lockTable_dataLocked (inv_history hh) hL]; exact ih
  refine ⟨_, _, rfl, rfl, ?_, ?_⟩
  · simp [initObj, reset, fresh, hdl]
  · simp [okayToAdd, propsLocked, dataLocked, Obj.isInit, initObj, reset, hdl]

example : History (0 : Int) (([] ++ [.init 3]) ++ [.reset])
    { heap := sys0.heap, next := 0, obj := reset (initObj fresh 3) true } :=
  .snoc (.snoc (.start _) rfl (by intro k h; cases h; decide)) rfl (by simp)

/-- **C18 is violated** once the field data has been created: after reset and initialize (any
size) the object refuses every registration with an error, because data_locked is never
cleared. -/
theorem C18_violated {zero : R} (s : Sys R) (hd : (dataLocked s.obj).1 = true) (k : Int)
    (name units vd : List Char) (ad th wa : Bool) (d mn : R) :
    ∃ s1 s2 s3 e, step zero s .reset = some (s1, 0) ∧ step zero s1 (.init k) = some (s2, 0) ∧
      step zero s2 (.add name units vd ad th wa d mn) = some (s3, e) ∧ e ≠ 0 ∧
      s3.obj = s2.obj ∧ findConst s3.obj name = none := by
  have hdl : s.obj.dataLocked = true := by
    unfold dataLocked at hd
    split at hd
    · exact hd
    · simp at hd
  refine ⟨_, _, _, _, rfl, rfl, rfl, ?_, ?_, ?_⟩
  · simp [addMetadata, okayToAdd, propsLocked, dataLocked, Obj.isInit, initObj, reset, hdl]
  · simp [addMetadata, okayToAdd, propsLocked, dataLocked, Obj.isInit, initObj, reset, hdl]
  · have : ∀ h p, (addMetadata h (initObj (reset s.obj true) k) p 0).1 =
        initObj (reset s.obj true) k := by
      intro h p
      simp [addMetadata, okayToAdd, propsLocked, dataLocked, Obj.isInit, initObj, reset, hdl]
    simp only [this]
    exact findConst_init _ _ _

example : (dataLocked demoReady.obj).1 = true := by decide

end Ccpp.Const
