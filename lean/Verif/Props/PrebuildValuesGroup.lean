import Verif.Props.PrebuildValuesMain
import Mathlib.Data.List.Nodup
/-!
# The values around the calls of prebuild (C75): the theorems
-/
namespace Ccpp.PV
open PB (Str)
open PA (Intent)

variable {V : Type} {env : Env V} {run : Bool}

theorem SameShape.refl (h : Host V) : SameShape h h := fun _ => rfl
theorem SameShape.trans {h h' h'' : Host V} (a : SameShape h h') (b : SameShape h' h'') : SameShape h h'' := fun k => (a k).trans (b k)

theorem callSpec_shape {S : Scheme V} {args : List Arg} {h h' : Host V} (sp : CallSpec env run S args h h') : SameShape h h' := by
  intro k
  by_cases hd : ∃ a ∈ args, a.key = k
  · obtain ⟨a, ha, hd⟩ := hd
    subst hd
    exact (sp.shape a ha).symm
  · rw [sp.frame k fun a ha he => hd ⟨a, ha, he⟩]

theorem group_main {failed : Host V → Bool} {s : Tmps} {L : List Arg} (sep : Sep run s L)
    (rank : ∀ a ∈ L, ∀ b ∈ L, a.key = b.key → a.arr = b.arr) : ∀ {calls : List (Scheme V × List Arg)} {m : Mem V},
    GroupOk env run calls m.host → (∀ c ∈ calls, ∀ a ∈ c.2, a ∈ L ∧ Handled run a ∧ refused run a = false) → (∀ a ∈ L, Clean run s m a) → (∀ p, m.ptr p = .null) →
    ∃ m', execGroup env failed (calls.map fun c => (c.1, codeOf run s c.2)) m = some m' ∧ GroupSpec env run failed calls m.host m'.host ∧
      (∀ a ∈ L, Clean run s m' a) ∧ ∀ p, m'.ptr p = .null := by
  intro calls
  induction calls with
  | nil => intro m _ _ hcl hn; exact ⟨m, rfl, .done _, hcl, hn⟩
  | cons c calls ih =>
    intro m ok hL hcl hn
    have hc := fun a ha => hL c (by simp) a ha
    have aok : ∀ a ∈ c.2, ArgOk env run m.host a := by
      intro a ha
      obtain ⟨h1, h2⟩ := (hc a ha).2.1
      refine ⟨?_, h2, (hc a ha).2.2, ok.array c (by simp) a ha, ok.shape m.host (.refl _) c (by simp) a ha, ?_⟩
      · rcases h1 with h | h | h | h
        · exact .inl h
        · exact .inr (.inl h)
        · exact .inr (.inr (.inl (by simp [optional, h])))
        · exact .inr (.inr (.inr h))
      · intro ho
        have : a.cond = trueText := by simpa [optional] using ho
        rw [this]; exact ok.always
    obtain ⟨m1, e1, sp, cl1, f1, hn1⟩ := call_main (S := c.1) (env := env) (m := m)
      (fun a ha b hb => sep a (hc a ha).1 b (hc b hb).1) (ok.keys c (by simp)) (ok.locs c (by simp)) aok (ok.conds c (by simp))
      (ok.schemes c (by simp)) (fun a ha => hcl a (hc a ha).1) hn
    have hcl1 : ∀ b ∈ L, Clean run s m1 b := by
      intro b hb
      constructor
      · intro hu l hl
        by_cases hd : ∃ a ∈ c.2, usesTmp run a = true ∧ tmpOf s b = tmpOf s a
        · obtain ⟨a, ha, hua, he⟩ := hd
          have hk := (sep b hb a (hc a ha).1).1 hu hua he
          rw [he] at hl
          have := (cl1 a ha).1 hua l hl
          exact ⟨by rw [rank b hb a (hc a ha).1 hk]; exact this.1, this.2⟩
        · rw [f1.1 _ fun a ha hua he => hd ⟨a, ha, hua, he⟩] at hl
          exact (hcl b hb).1 hu l hl
      · intro _; exact hn1 _
    rw [List.map_cons, execGroup]
    simp only [e1, Option.bind_some]
    cases hf : failed m1.host with
    | true => exact ⟨m1, by simp, .stop sp hf, hcl1, hn1⟩
    | false =>
      have hsh := callSpec_shape sp
      obtain ⟨m2, e2, sp2, cl2, hn2⟩ := ih (m := m1)
        ⟨fun c hc => ok.keys c (by simp [hc]), fun c hc => ok.locs c (by simp [hc]), fun c hc => ok.schemes c (by simp [hc]),
         fun c hc => ok.conds c (by simp [hc]), fun c hc => ok.array c (by simp [hc]),
         fun c hc a ha c' hc' => ok.rank c (by simp [hc]) a ha c' (by simp [hc']),
         fun h' hs c hc => ok.shape h' (hsh.trans hs) c (by simp [hc]), ok.always⟩
        (fun c hc => hL c (by simp [hc])) hcl1 hn1
      exact ⟨m2, by simpa using e2, .next sp hf sp2, cl2, hn2⟩

theorem inv_start : Inv ⟨[], []⟩ := ⟨fun i e h => by simp at h, fun i e h => by simp at h⟩

/-- **C75**: for all calls of a group, all variables of the host, all sizes of blocks, all schemes, and all contents of uninitialised memory: the generated
code runs without an error; every scheme gets the values of the host in its own units, with all blocks joined outside of the run phase; afterwards
the host has the results in its own units in the right blocks, and nothing else has changed; all temporary arrays are deallocated and
all pointers are null again. Partial: only for arguments that are `Handled`, see the violations below. -/
theorem C75_values_partial {calls : List (Scheme V × List Arg)} {h : Host V} {failed : Host V → Bool} {s : Tmps} {codes : List Code}
    (hg : genGroup run (calls.map (·.2)) = some (s, codes)) (ok : GroupOk env run calls h)
    (handled : ∀ c ∈ calls, ∀ a ∈ c.2, Handled run a) :
    ∃ m, execGroup env failed ((calls.map (·.1)).zip codes) (start h) = some m ∧ GroupSpec env run failed calls h m.host ∧
      (∀ c ∈ calls, ∀ a ∈ c.2, a.arr = true → usesTmp run a = true → m.tmp (tmpOf s a) = none) ∧ ∀ p, m.ptr p = .null := by
  obtain ⟨i1, _, i3, i4⟩ := genCalls_code inv_start hg
  let L := (calls.map (·.2)).flatten
  have hmem : ∀ a, a ∈ L ↔ ∃ c ∈ calls, a ∈ c.2 := by
    intro a
    simp only [L, List.mem_flatten, List.mem_map]
    constructor
    · rintro ⟨l, ⟨c, hc, rfl⟩, ha⟩; exact ⟨c, hc, ha⟩
    · rintro ⟨c, hc, ha⟩; exact ⟨_, ⟨c, hc, rfl⟩, ha⟩
  have hhas : ∀ a ∈ L, refused run a = false ∧ Has run s a := by
    intro a ha
    obtain ⟨c, hc, ha⟩ := (hmem a).1 ha
    exact i4 c.2 (List.mem_map.2 ⟨c, hc, rfl⟩) a ha
  obtain ⟨m, e, sp, cl, hn⟩ := group_main (env := env) (failed := failed) (calls := calls) (m := start h) (sep_of i1 fun a ha => (hhas a ha).2)
    (fun a ha b hb hk => by
      obtain ⟨c, hc, ha⟩ := (hmem a).1 ha
      obtain ⟨c', hc', hb⟩ := (hmem b).1 hb
      exact ok.rank c hc a ha c' hc' b hb hk)
    ok (fun c hc a ha => ⟨(hmem a).2 ⟨c, hc, ha⟩, handled c hc a ha, (hhas a ((hmem a).2 ⟨c, hc, ha⟩)).1⟩)
    (fun a _ => ⟨fun _ l hl => by simp [start] at hl, fun _ => rfl⟩) (fun _ => rfl)
  refine ⟨m, ?_, sp, fun c hc a ha => ?_, hn⟩
  · have : (calls.map (·.1)).zip codes = calls.map fun c => (c.1, codeOf run s c.2) := by
      rw [i3, List.map_map]
      clear hg ok handled i3 i4 hmem hhas e sp cl hn L
      induction calls with
      | nil => rfl
      | cons c calls ih => simp [ih]
    rw [this]; exact e
  · have := cl a ((hmem a).2 ⟨c, hc, ha⟩)
    intro harr hu
    cases ht : m.tmp (tmpOf s a) with
    | none => rfl
    | some l => have := (this.1 hu l ht).1; rw [harr] at this; cases this

/-- Every group is either written or refused for a reason: a variable in a blocked structure without the horizontal dimension, or a variable of a thread,
outside of the run phase. -/
theorem C75_accepted {cs : List (List Arg)} : (∃ r, genGroup run cs = some r) ↔
    ∀ c ∈ cs, ∀ a ∈ c, run = true ∨ (blocked a.key = true ∧ a.hdim = true) ∨ (blocked a.key = false ∧ threaded a.key = false) := by
  have h1 : ∀ (l : List Arg) (s : Tmps), (∃ r, genArgs run s l = some r) ↔ ∀ a ∈ l, refused run a = false := by
    intro l
    induction l with
    | nil => intro s; simp [genArgs]
    | cons a l ih =>
      intro s
      rw [genArgs]
      cases hr : refused run a with
      | true => simp [hr]
      | false =>
        have := ih (register run s a)
        simp only [Bool.false_eq_true, if_false, Option.map_eq_some_iff, List.mem_cons, forall_eq_or_imp, hr, true_and]
        rw [← this]
        constructor
        · rintro ⟨r, x, hx, _⟩; exact ⟨x, hx⟩
        · rintro ⟨x, hx⟩; exact ⟨_, x, hx, rfl⟩
  have h2 : ∀ (cs : List (List Arg)) (s : Tmps), (∃ r, genCalls run s cs = some r) ↔ ∀ c ∈ cs, ∀ a ∈ c, refused run a = false := by
    intro cs
    induction cs with
    | nil => intro s; simp [genCalls]
    | cons c cs ih =>
      intro s
      rw [genCalls]
      constructor
      · rintro ⟨r, hr⟩
        rw [Option.bind_eq_some_iff] at hr
        obtain ⟨x, hx, hr⟩ := hr
        simp only [Option.map_eq_some_iff] at hr
        obtain ⟨y, hy, _⟩ := hr
        intro d hd
        rcases List.mem_cons.1 hd with hd | hd
        · subst hd; exact (h1 _ _).1 ⟨x, hx⟩
        · exact (ih _).1 ⟨y, hy⟩ d hd
      · intro h
        obtain ⟨x, hx⟩ := (h1 c s).2 (h c (by simp))
        obtain ⟨y, hy⟩ := (ih x.1).2 fun d hd => h d (by simp [hd])
        exact ⟨_, by rw [hx, Option.bind_some, hy]; rfl⟩
  unfold genGroup
  rw [h2]
  refine forall_congr' fun c => imp_congr_right fun _ => forall_congr' fun a => imp_congr_right fun _ => ?_
  unfold refused deblock
  cases run <;> cases blocked a.key <;> cases a.hdim <;> cases threaded a.key <;> simp

/-! ## The specification determines the result -/

theorem blocks_eq : ∀ {x y : List (List V)}, x.map List.length = y.map List.length → x.flatten = y.flatten → x = y := by
  intro x
  induction x with
  | nil => intro y h _; cases y with | nil => rfl | cons => simp at h
  | cons b x ih =>
    intro y h hf
    cases y with
    | nil => simp at h
    | cons c y =>
      simp only [List.map_cons, List.cons.injEq] at h
      simp only [List.flatten_cons] at hf
      obtain ⟨h1, h2⟩ := List.append_inj hf h.1
      rw [h1, ih h.2 h2]

/-- At most one state of the host meets the specification of a call. -/
theorem C75_determined {S : Scheme V} {args : List Arg} {h x y : Host V} (hx : CallSpec env run S args h x) (hy : CallSpec env run S args h y)
    (sh : ∀ a ∈ args, env.active a.cond h = true → ShapeOk env run (h a.key) a) : x = y := by
  funext k
  by_cases hd : ∃ a ∈ args, a.key = k
  swap
  · rw [hx.frame k fun a ha he => hd ⟨a, ha, he⟩, hy.frame k fun a ha he => hd ⟨a, ha, he⟩]
  obtain ⟨a, ha, hk⟩ := hd
  subst hk
  by_cases hi : a.intent = .in ∨ env.active a.cond h = false
  · rw [hx.unchanged a ha hi, hy.unchanged a ha hi]
  have hi1 : a.intent ≠ .in := fun h => hi (.inl h)
  have hact : env.active a.cond h = true := by
    cases hh : env.active a.cond h with
    | true => rfl
    | false => exact absurd (.inr hh) hi
  have hv : visible env run a.key (x a.key) = visible env run a.key (y a.key) := by
    rw [hx.result a ha hi1 hact, hy.result a ha hi1 hact]
  have hl : (x a.key).map List.length = (y a.key).map List.length := by rw [hx.shape a ha, hy.shape a ha]
  unfold visible at hv
  cases hr : (run && blocked a.key) with
  | false => rw [hr] at hv; exact blocks_eq hl (by simpa using hv)
  | true =>
    rw [hr] at hv
    simp only [if_true] at hv
    simp only [Bool.and_eq_true] at hr
    have hb := (sh a ha hact).2.2.1 hr.1 hr.2
    have hlx : (x a.key).length = (h a.key).length := by simpa using congrArg List.length (hx.shape a ha)
    have hly : (y a.key).length = (h a.key).length := by simpa using congrArg List.length (hy.shape a ha)
    apply List.ext_getElem?
    intro i
    by_cases hib : i = env.blk
    · subst hib
      rw [List.getElem?_eq_getElem (by omega), List.getElem?_eq_getElem (by omega)] at hv ⊢
      simpa using hv
    · rw [hx.others hr.1 a ha hr.2 i hib, hy.others hr.1 a ha hr.2 i hib]

/-- Outside of the run phase the results do not depend on how the columns are divided into blocks. -/
theorem C75_partition {S : Scheme V} {args : List Arg} {env₁ env₂ : Env V} {h₁ h₂ x₁ x₂ : Host V}
    (s₁ : CallSpec env₁ false S args h₁ x₁) (s₂ : CallSpec env₂ false S args h₂ x₂)
    (hfn : env₁.fn = env₂.fn) (hcols : ∀ a ∈ args, (h₁ a.key).flatten = (h₂ a.key).flatten)
    (hact : ∀ a ∈ args, env₁.active a.cond h₁ = env₂.active a.cond h₂) :
    ∀ a ∈ args, (x₁ a.key).flatten = (x₂ a.key).flatten := by
  intro a ha
  by_cases hi : a.intent = .in ∨ env₁.active a.cond h₁ = false
  · rw [s₁.unchanged a ha hi, s₂.unchanged a ha (by rw [← hact a ha]; exact hi)]; exact hcols a ha
  have hi1 : a.intent ≠ .in := fun h => hi (.inl h)
  have hact1 : env₁.active a.cond h₁ = true := by
    cases hh : env₁.active a.cond h₁ with
    | true => rfl
    | false => exact absurd (.inr hh) hi
  have hin : inputs env₁ false h₁ args = inputs env₂ false h₂ args := by
    funext d
    unfold inputs
    cases hf : args.find? (fun a => a.loc == d) with
    | none => rfl
    | some b =>
      have hb := List.mem_of_find?_eq_some hf
      simp only [hact b hb]
      have : toScheme env₁ b (visible env₁ false b.key (h₁ b.key)) = toScheme env₂ b (visible env₂ false b.key (h₂ b.key)) := by
        simp only [visible, Bool.false_and, Bool.false_eq_true, if_false, hcols b hb, toScheme, hfn]
      rw [this]
  have r₁ := s₁.result a ha hi1 hact1
  have r₂ := s₂.result a ha hi1 (by rw [← hact a ha]; exact hact1)
  simp only [visible, Bool.false_and, Bool.false_eq_true, if_false] at r₁ r₂
  rw [r₁, r₂, hin]
  simp [toHost, hfn]

/-! ## Names -/

theorem lower_digit {c : Char} (h : c.isDigit = true) : c.toLower = c := by
  unfold Char.toLower
  rw [dif_neg]
  simp only [Char.isDigit, Bool.and_eq_true, decide_eq_true_eq] at h
  intro hc
  have h1 : (57 : UInt32).toNat = 57 := rfl
  have h2 := UInt32.le_iff_toNat_le.1 h.2
  have h3 := UInt32.le_iff_toNat_le.1 hc.1
  simp at h2 h3
  omega

theorem lower_dec (n : Nat) : lower (dec n) = dec n := by
  unfold lower
  conv => rhs; rw [← List.map_id (dec n)]
  exact List.map_congr_left fun c hc => lower_digit (dec_digit hc)

theorem lower_append (a b : Str) : lower (a ++ b) = lower a ++ lower b := by simp [lower]

theorem lower_convName (n : Nat) : lower (convName n) = convName n := by
  unfold convName; rw [lower_append, lower_dec]; rfl

theorem lower_localName (l : Str) (n : Nat) : lower (localName l n) = localName (lower l) n := by
  unfold localName
  rw [lower_append]
  show lower l ++ lower ([('_' : Char)] ++ (dec n ++ "_local".toList)) = _
  rw [lower_append, lower_append, lower_dec]
  rfl

theorem lower_ptrName (l : Str) (n : Nat) : lower (ptrName l n ++ "_array".toList) = ptrName (lower l) n ++ "_array".toList := by
  unfold ptrName
  rw [lower_append, lower_append]
  show lower l ++ lower ([('_' : Char)] ++ (dec n ++ "_ptr".toList)) ++ _ = _
  rw [lower_append, lower_append, lower_dec]
  rfl

theorem tmpNum_lower {x : Str} {n : Nat} (h : TmpNum x n) : TmpNum (lower x) n := by
  rcases h with h | ⟨l, h⟩
  · exact .inl (by rw [h, lower_convName])
  · exact .inr ⟨lower l, by rw [h, lower_localName]⟩

theorem numbered_nodup {P : Str → Nat → Prop} {l : List (Str × Str)} (hl : Numbered P l) {f : Str × Str → Str}
    (hf : ∀ e n e' n', P e.2 n → P e'.2 n' → f e = f e' → n = n') : (l.map f).Nodup := by
  rw [List.nodup_iff_injective_get]
  rintro ⟨i, hi⟩ ⟨j, hj⟩ hij
  simp only [List.length_map] at hi hj
  simp only [List.get_eq_getElem, List.getElem_map] at hij
  have := hf _ _ _ _ (hl i _ (List.getElem?_eq_getElem hi)) (hl j _ (List.getElem?_eq_getElem hj)) hij
  simp only [Fin.mk.injEq]
  omega

theorem last_conv (n : Nat) : ∃ c, (convName n).getLast? = some c ∧ c.isDigit = true := by
  unfold convName
  obtain ⟨c, hc⟩ : ∃ c, (dec n).getLast? = some c := by
    cases h : dec n with
    | nil => exact absurd h dec_ne_nil
    | cons c r => exact ⟨_, List.getLast?_eq_some_getLast (by simp)⟩
  exact ⟨c, by rw [List.getLast?_append, hc]; rfl, dec_digit (List.mem_of_getLast? hc)⟩

/-- The last character of the name of a temporary variable -/
theorem last_tmp {x : Str} {n : Nat} (h : TmpNum x n) : ∃ c, x.getLast? = some c ∧ (c.isDigit = true ∨ c = 'l') := by
  rcases h with h | ⟨l, h⟩
  · subst h; obtain ⟨c, h1, h2⟩ := last_conv n; exact ⟨c, h1, .inl h2⟩
  · subst h
    refine ⟨'l', ?_, .inr rfl⟩
    unfold localName
    rw [show l ++ '_' :: (dec n ++ "_local".toList) = (l ++ '_' :: (dec n ++ "_loca".toList)) ++ ['l'] by simp]
    exact List.getLast?_concat

/-- **C75**, names: the local variables of a cap have different names, also if upper and lower case are not distinguished. -/
theorem C75_names {cs : List (List Arg)} {s : Tmps} {codes : List Code} (hg : genGroup run cs = some (s, codes)) :
    ((localNames run s cs).map lower).Nodup := by
  obtain ⟨⟨i1, i2⟩, _⟩ := genCalls_code inv_start hg
  unfold localNames
  rw [List.map_append, List.map_append, List.map_map, List.map_map]
  have n1 : (s.tmps.map (lower ∘ (·.2))).Nodup := numbered_nodup i1 fun e n e' n' h h' he => by
    have h1 := tmpNum_lower h
    have h2 := tmpNum_lower h'
    simp only [Function.comp] at he
    rw [he] at h1
    exact tmpNum_inj h1 h2
  have n2 : (s.ptrs.map (lower ∘ fun e => e.2 ++ "_array".toList)).Nodup := numbered_nodup i2 fun e n e' n' ⟨l, h⟩ ⟨l', h'⟩ he => by
    simp only [Function.comp] at he
    rw [h, h', lower_ptrName, lower_ptrName] at he
    exact ptrName_inj (List.append_cancel_right he)
  have t1 : ∀ x ∈ s.tmps.map (lower ∘ (·.2)), ∃ c, x.getLast? = some c ∧ (c.isDigit = true ∨ c = 'l') := by
    intro x hx
    obtain ⟨e, he, hx⟩ := List.mem_map.1 hx
    obtain ⟨i, hi⟩ := List.mem_iff_getElem?.1 he
    subst hx
    exact last_tmp (tmpNum_lower (i1 i e hi))
  have t2 : ∀ x ∈ s.ptrs.map (lower ∘ fun e => e.2 ++ "_array".toList), x.getLast? = some 'y' := by
    intro x hx
    obtain ⟨e, he, hx⟩ := List.mem_map.1 hx
    obtain ⟨i, hi⟩ := List.mem_iff_getElem?.1 he
    obtain ⟨l, hl⟩ := i2 i e hi
    subst hx
    simp only [Function.comp]
    rw [hl, lower_ptrName]
    rw [show ptrName (lower l) (i + 1) ++ "_array".toList = (ptrName (lower l) (i + 1) ++ "_arra".toList) ++ ['y'] by simp]
    simp
  have t3 : ∀ x ∈ (if cs.any (fun c => c.any (deblock run)) then ["ib".toList, "nb".toList] else []).map lower, x.getLast? = some 'b' := by
    intro x hx
    split at hx
    · simp only [List.map_cons, List.map_nil, List.mem_cons, List.not_mem_nil, or_false] at hx
      rcases hx with hx | hx <;> subst hx <;> decide
    · simp at hx
  refine List.Nodup.append (List.Nodup.append n1 n2 ?_) ?_ ?_
  · intro x hx hy
    obtain ⟨c, hc, hc'⟩ := t1 x hx
    rw [t2 x hy] at hc
    cases hc
    revert hc'; decide
  · split
    · decide
    · simp
  · intro x hx hy
    have hb := t3 x hy
    rcases List.mem_append.1 hx with hx | hx
    · obtain ⟨c, hc, hc'⟩ := t1 x hx
      rw [hb] at hc
      cases hc
      revert hc'; decide
    · rw [t2 x hx] at hb; exact absurd hb (by decide)

end Ccpp.PV
