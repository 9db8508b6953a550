import Verif.Props.PrebuildValues
/-!
# Proofs about the values around the calls of prebuild (C75): calls and groups
-/
namespace Ccpp.PV
open PB (Str)
open PA (Intent)

variable {V : Type} {env : Env V} {run : Bool}

/-! ## The names of the temporary variables -/

theorem dec_inj {n m : Nat} (h : dec n = dec m) : n = m := by
  have := congrArg (fun l => Nat.ofDigitChars 10 l 0) h
  simpa [dec] using this

theorem dec_digit {n : Nat} {c : Char} (h : c ∈ dec n) : c.isDigit = true := Nat.isDigit_of_mem_toDigits (by decide) (by decide) h

theorem takeWhile_dec {n : Nat} {c : Char} {r : Str} (hc : c.isDigit = false) :
    ((dec n).reverse ++ c :: r).takeWhile Char.isDigit = (dec n).reverse := by
  rw [List.takeWhile_append_of_pos (fun x hx => dec_digit (List.mem_reverse.1 hx))]
  simp [hc]

theorem dec_ne_nil {n : Nat} : dec n ≠ [] := Nat.toDigits_ne_nil

/-- A name with this number -/
def TmpNum (x : Str) (n : Nat) : Prop := x = convName n ∨ ∃ loc, x = localName loc n

theorem convName_inj {n m : Nat} (h : convName n = convName m) : n = m :=
  dec_inj (List.append_cancel_left h)

theorem localName_rev (loc : Str) (n : Nat) : (localName loc n).reverse = "lacol_".toList ++ ((dec n).reverse ++ '_' :: loc.reverse) := by
  unfold localName
  simp

theorem ptrName_rev (loc : Str) (n : Nat) : (ptrName loc n).reverse = "rtp_".toList ++ ((dec n).reverse ++ '_' :: loc.reverse) := by
  unfold ptrName
  simp

theorem localName_inj {loc loc' : Str} {n m : Nat} (h : localName loc n = localName loc' m) : n = m := by
  have := congrArg List.reverse h
  rw [localName_rev, localName_rev] at this
  have := congrArg (List.takeWhile Char.isDigit) (List.append_cancel_left this)
  rw [takeWhile_dec (by decide), takeWhile_dec (by decide)] at this
  exact dec_inj (List.reverse_inj.1 this)

theorem ptrName_inj {loc loc' : Str} {n m : Nat} (h : ptrName loc n = ptrName loc' m) : n = m := by
  have := congrArg List.reverse h
  rw [ptrName_rev, ptrName_rev] at this
  have := congrArg (List.takeWhile Char.isDigit) (List.append_cancel_left this)
  rw [takeWhile_dec (by decide), takeWhile_dec (by decide)] at this
  exact dec_inj (List.reverse_inj.1 this)

theorem conv_ne_local {loc : Str} {n m : Nat} : convName n ≠ localName loc m := by
  intro h
  have h1 := congrArg (fun l => l.reverse.head?) h
  simp only [localName_rev] at h1
  unfold convName at h1
  simp only [List.reverse_append] at h1
  cases hd : (dec n).reverse with
  | nil => exact dec_ne_nil (List.reverse_eq_nil_iff.1 hd)
  | cons c r =>
    rw [hd] at h1
    simp at h1
    have : c ∈ dec n := by rw [← List.mem_reverse, hd]; simp
    rw [h1] at this
    exact absurd (dec_digit this) (by decide)

theorem tmpNum_inj {x : Str} {n m : Nat} (h : TmpNum x n) (h' : TmpNum x m) : n = m := by
  rcases h with h | ⟨l, h⟩ <;> rcases h' with h' | ⟨l', h'⟩
  · exact convName_inj (h.symm.trans h')
  · exact absurd (h.symm.trans h') conv_ne_local
  · exact absurd (h'.symm.trans h) conv_ne_local
  · exact localName_inj (h.symm.trans h')

/-- The entries of a table are numbered. -/
def Numbered (P : Str → Nat → Prop) (l : List (Str × Str)) : Prop := ∀ i e, l[i]? = some e → P e.2 (i + 1)

theorem lookup_index {l : List (Str × Str)} {k x : Str} (h : lookup l k = some x) : ∃ i : Nat, l[i]? = some (k, x) := by
  induction l with
  | nil => cases h
  | cons e l ih =>
    rw [lookup] at h
    split at h
    · next he => cases h; exact ⟨0, by simp [← he]⟩
    · obtain ⟨i, hi⟩ := ih h; exact ⟨i + 1, by simpa using hi⟩

theorem lookup_inj {P : Str → Nat → Prop} (hP : ∀ x n m, P x n → P x m → n = m) {l : List (Str × Str)} (hl : Numbered P l) {k k' x : Str}
    (h : lookup l k = some x) (h' : lookup l k' = some x) : k = k' := by
  obtain ⟨i, hi⟩ := lookup_index h
  obtain ⟨j, hj⟩ := lookup_index h'
  have := hP x _ _ (hl i (k, x) hi) (hl j (k', x) hj)
  have hij : i = j := by omega
  subst hij
  rw [hi] at hj; cases hj; rfl

theorem lookup_append {l r : List (Str × Str)} {k x : Str} (h : lookup l k = some x) : lookup (l ++ r) k = some x := by
  induction l with
  | nil => cases h
  | cons e l ih =>
    rw [List.cons_append, lookup]
    rw [lookup] at h
    split at h
    · next he => rw [if_pos he]; exact h
    · next he => rw [if_neg he]; exact ih h

theorem lookup_append_none {l : List (Str × Str)} {k x : Str} (h : lookup l k = none) : lookup (l ++ [(k, x)]) k = some x := by
  induction l with
  | nil => simp [lookup]
  | cons e l ih =>
    rw [List.cons_append, lookup]
    rw [lookup] at h
    split at h
    · cases h
    · next he => rw [if_neg he]; exact ih h

theorem ensure_numbered {P : Str → Nat → Prop} {l : List (Str × Str)} {k : Str} {mk : Nat → Str} (hmk : ∀ n, P (mk n) n) (hl : Numbered P l) :
    Numbered P (ensure l k mk) := by
  unfold ensure
  split
  · exact hl
  · intro i e hi
    rw [List.getElem?_append] at hi
    split at hi
    · exact hl i e hi
    · next hlt =>
      rcases Nat.lt_or_ge i (l.length + 1) with h | h
      · have : i = l.length := by omega
        subst this
        simp at hi
        subst hi
        exact hmk _
      · rw [List.getElem?_eq_none (by simp; omega)] at hi; cases hi

theorem ensure_keeps {l : List (Str × Str)} {k k' x : Str} {mk : Nat → Str} (h : lookup l k' = some x) : lookup (ensure l k mk) k' = some x := by
  unfold ensure
  split
  · exact h
  · exact lookup_append h

theorem ensure_has {l : List (Str × Str)} {k : Str} {mk : Nat → Str} : ∃ x, lookup (ensure l k mk) k = some x := by
  unfold ensure
  split
  · next h => exact Option.isSome_iff_exists.1 h
  · next h => exact ⟨_, lookup_append_none (by simpa using h)⟩

/-- Both tables are numbered. -/
def Inv (s : Tmps) : Prop := Numbered TmpNum s.tmps ∧ Numbered (fun x n => ∃ loc, x = ptrName loc n) s.ptrs

/-- The second state has all entries of the first. -/
def Ext (s s' : Tmps) : Prop := (∀ k x, lookup s.tmps k = some x → lookup s'.tmps k = some x) ∧
  (∀ k x, lookup s.ptrs k = some x → lookup s'.ptrs k = some x)

theorem Ext.refl (s : Tmps) : Ext s s := ⟨fun _ _ h => h, fun _ _ h => h⟩
theorem Ext.trans {s s' s'' : Tmps} (h : Ext s s') (h' : Ext s' s'') : Ext s s'' :=
  ⟨fun k x hx => h'.1 k x (h.1 k x hx), fun k x hx => h'.2 k x (h.2 k x hx)⟩

/-- The argument has its entries. -/
def Has (run : Bool) (s : Tmps) (a : Arg) : Prop := (usesTmp run a = true → ∃ x, lookup s.tmps a.key = some x) ∧
  (optional a = true → ∃ x, lookup s.ptrs a.key = some x)

theorem Has.ext {s s' : Tmps} {a : Arg} (h : Has run s a) (e : Ext s s') : Has run s' a :=
  ⟨fun hu => (h.1 hu).imp fun _ hx => e.1 _ _ hx, fun hu => (h.2 hu).imp fun _ hx => e.2 _ _ hx⟩

theorem register_ok {s : Tmps} (hs : Inv s) (a : Arg) : Inv (register run s a) ∧ Ext s (register run s a) ∧ Has run (register run s a) a := by
  unfold register
  refine ⟨⟨?_, ?_⟩, ⟨fun k x hx => ?_, fun k x hx => ?_⟩, fun hu => ?_, fun ho => ?_⟩
  · show Numbered TmpNum (if _ then _ else _)
    split
    · exact ensure_numbered (fun n => .inr ⟨_, rfl⟩) hs.1
    · split
      · exact ensure_numbered (fun n => .inl rfl) hs.1
      · exact hs.1
  · show Numbered _ (if _ then _ else _)
    split
    · exact ensure_numbered (fun n => ⟨_, rfl⟩) hs.2
    · exact hs.2
  · dsimp only
    split
    · exact ensure_keeps hx
    · split
      · exact ensure_keeps hx
      · exact hx
  · dsimp only
    split
    · exact ensure_keeps hx
    · exact hx
  · dsimp only
    split
    · exact ensure_has
    · next hd =>
      rw [if_pos (by unfold usesTmp at hu; simpa [hd] using hu)]
      exact ensure_has
  · dsimp only
    rw [if_pos ho]
    exact ensure_has

theorem names_ext {s s' : Tmps} {a : Arg} (h : Has run s a) (e : Ext s s') :
    (usesTmp run a = true → tmpOf s' a = tmpOf s a) ∧ (optional a = true → ptrOf s' a = ptrOf s a) := by
  constructor
  · intro hu; obtain ⟨x, hx⟩ := h.1 hu; simp [tmpOf, hx, e.1 _ _ hx]
  · intro hu; obtain ⟨x, hx⟩ := h.2 hu; simp [ptrOf, hx, e.2 _ _ hx]

theorem before_ext {s s' : Tmps} {a : Arg} (h : Has run s a) (e : Ext s s') : before run s' a = before run s a := by
  obtain ⟨h1, h2⟩ := names_ext h e
  unfold before
  cases hd : deblock run a with
  | true =>
    rw [h1 (by simp [usesTmp, hd])]
    cases ho : optional a with
    | true => rw [h2 ho]
    | false => simp
  | false =>
    cases hc : converts run a with
    | true =>
      rw [h1 (by simp [usesTmp, hc])]
      cases ho : optional a with
      | true => rw [h2 ho]
      | false => simp
    | false =>
      cases ho : optional a with
      | true => simp [h2 ho]
      | false => simp

theorem after_ext {s s' : Tmps} {a : Arg} (h : Has run s a) (e : Ext s s') : after run s' a = after run s a := by
  obtain ⟨h1, h2⟩ := names_ext h e
  unfold after
  cases hd : deblock run a with
  | true =>
    rw [h1 (by simp [usesTmp, hd])]
    cases ho : optional a with
    | true => rw [h2 ho]
    | false => simp
  | false =>
    cases hc : converts run a with
    | true =>
      rw [h1 (by simp [usesTmp, hc])]
      cases ho : optional a with
      | true => rw [h2 ho]
      | false => simp
    | false =>
      cases ho : optional a with
      | true => simp [h2 ho]
      | false => simp

theorem actual_ext {s s' : Tmps} {a : Arg} (h : Has run s a) (e : Ext s s') : actual run s' a = actual run s a := by
  obtain ⟨h1, h2⟩ := names_ext h e
  unfold actual
  cases ho : optional a with
  | true => simp [h2 ho]
  | false =>
    cases hd : deblock run a with
    | true => simp [h1 (by simp [usesTmp, hd])]
    | false =>
      cases hc : converts run a with
      | true => simp [h1 (by simp [usesTmp, hc])]
      | false => simp

/-- The code of a call with the names of a state -/
def codeOf (run : Bool) (s : Tmps) (args : List Arg) : Code :=
  ⟨args.map fun a => (a.cond, before run s a), args.map fun a => (a.loc, a.intent, actual run s a), args.map fun a => (a.cond, after run s a)⟩

theorem codeOf_ext {s s' : Tmps} {args : List Arg} (h : ∀ a ∈ args, Has run s a) (e : Ext s s') : codeOf run s' args = codeOf run s args := by
  unfold codeOf
  congr 1
  · exact List.map_congr_left fun a ha => by rw [before_ext (h a ha) e]
  · exact List.map_congr_left fun a ha => by rw [actual_ext (h a ha) e]
  · exact List.map_congr_left fun a ha => by rw [after_ext (h a ha) e]

theorem genArgs_code : ∀ {args : List Arg} {s s' : Tmps} {c : Code}, Inv s → genArgs run s args = some (s', c) →
    Inv s' ∧ Ext s s' ∧ c = codeOf run s' args ∧ ∀ a ∈ args, refused run a = false ∧ Has run s' a := by
  intro args
  induction args with
  | nil =>
    intro s s' c hs h
    rw [genArgs] at h; cases h
    exact ⟨hs, .refl _, rfl, by simp⟩
  | cons a as ih =>
    intro s s' c hs h
    rw [genArgs] at h
    split at h
    · cases h
    · next hr =>
      obtain ⟨r1, r2, r3⟩ := register_ok (run := run) hs a
      simp only [Option.map_eq_some_iff] at h
      obtain ⟨⟨s'', c'⟩, hg, he⟩ := h
      obtain ⟨i1, i2, i3, i4⟩ := ih r1 hg
      cases he
      refine ⟨i1, r2.trans i2, ?_, ?_⟩
      · simp only [i3]
        unfold codeOf
        simp only [List.map_cons]
        rw [before_ext r3 i2, actual_ext r3 i2, after_ext r3 i2]
      · intro b hb
        rcases List.mem_cons.1 hb with hb | hb
        · subst hb; exact ⟨by simpa using hr, r3.ext i2⟩
        · exact i4 b hb

theorem genCalls_code : ∀ {cs : List (List Arg)} {s s' : Tmps} {codes : List Code}, Inv s → genCalls run s cs = some (s', codes) →
    Inv s' ∧ Ext s s' ∧ codes = cs.map (codeOf run s') ∧ ∀ c ∈ cs, ∀ a ∈ c, refused run a = false ∧ Has run s' a := by
  intro cs
  induction cs with
  | nil =>
    intro s s' c hs h
    rw [genCalls] at h; cases h
    exact ⟨hs, .refl _, rfl, by simp⟩
  | cons a as ih =>
    intro s s' c hs h
    rw [genCalls, Option.bind_eq_some_iff] at h
    obtain ⟨⟨s1, c1⟩, hg, h⟩ := h
    simp only [Option.map_eq_some_iff] at h
    obtain ⟨⟨s2, c2⟩, hg2, he⟩ := h
    cases he
    obtain ⟨g1, g2, g3, g4⟩ := genArgs_code hs hg
    obtain ⟨i1, i2, i3, i4⟩ := ih g1 hg2
    refine ⟨i1, g2.trans i2, ?_, ?_⟩
    · simp only [List.map_cons, g3, i3, codeOf_ext (fun a ha => (g4 a ha).2) i2]
    · intro c hc
      rcases List.mem_cons.1 hc with hc | hc
      · subst hc; exact fun a ha => ⟨(g4 a ha).1, (g4 a ha).2.ext i2⟩
      · exact i4 c hc

/-- Different variables have different temporary variables and pointers. -/
def Sep (run : Bool) (s : Tmps) (l : List Arg) : Prop := ∀ a ∈ l, ∀ b ∈ l,
  (usesTmp run a = true → usesTmp run b = true → tmpOf s a = tmpOf s b → a.key = b.key) ∧
  (optional a = true → optional b = true → ptrOf s a = ptrOf s b → a.key = b.key)

theorem sep_of {s : Tmps} (hs : Inv s) {l : List Arg} (h : ∀ a ∈ l, Has run s a) : Sep run s l := by
  intro a ha b hb
  constructor
  · intro hu hv he
    obtain ⟨x, hx⟩ := (h a ha).1 hu
    obtain ⟨y, hy⟩ := (h b hb).1 hv
    simp [tmpOf, hx, hy] at he
    subst he
    exact lookup_inj (P := TmpNum) (fun _ _ _ => tmpNum_inj) hs.1 hx hy
  · intro hu hv he
    obtain ⟨x, hx⟩ := (h a ha).2 hu
    obtain ⟨y, hy⟩ := (h b hb).2 hv
    simp [ptrOf, hx, hy] at he
    subst he
    exact lookup_inj (fun _ _ _ ⟨_, h⟩ ⟨_, h'⟩ => ptrName_inj (h.symm.trans h')) hs.2 hx hy

/-! ## The phases of a call -/

theorem execBlocks_cons {m : Mem V} {b : Str × List Stmt} {l : List (Str × List Stmt)} :
    execBlocks env m (b :: l) = (execBlocks env m [b]).bind fun m => execBlocks env m l := by
  simp [execBlocks]

theorem Clean.of_eq {s : Tmps} {m m' : Mem V} {a : Arg} (h : Clean run s m a) (ht : usesTmp run a = true → m'.tmp (tmpOf s a) = m.tmp (tmpOf s a))
    (hp : optional a = true → m'.ptr (ptrOf s a) = m.ptr (ptrOf s a)) : Clean run s m' a :=
  ⟨fun hu l hl => h.1 hu l (by rw [← ht hu]; exact hl), fun ho => by rw [hp ho]; exact h.2 ho⟩

theorem Mid.of_eq {s : Tmps} {h : Host V} {m m' : Mem V} {a : Arg} (hm : Mid env run s h m a)
    (ht : usesTmp run a = true → m'.tmp (tmpOf s a) = m.tmp (tmpOf s a))
    (hp : optional a = true → m'.ptr (ptrOf s a) = m.ptr (ptrOf s a)) : Mid env run s h m' a := by
  refine ⟨fun hh => (hm.1 hh).of_eq ht hp, fun hh => ?_⟩
  obtain ⟨h1, h2, h3⟩ := hm.2 hh
  refine ⟨fun hu => ?_, fun ho => ?_, fun ho hu => ?_⟩
  · rw [ht hu]; exact h1 hu
  · rw [hp ho]; exact h2 ho
  · rw [ht hu]; exact h3 ho hu

theorem Done.of_eq {s : Tmps} {h : Host V} {m m' : Mem V} {a : Arg} {out : List V} (hm : Done env run s h out m a)
    (ht : usesTmp run a = true → m'.tmp (tmpOf s a) = m.tmp (tmpOf s a))
    (hp : optional a = true → m'.ptr (ptrOf s a) = m.ptr (ptrOf s a)) (hk : m'.host a.key = m.host a.key) : Done env run s h out m' a := by
  refine ⟨fun hh => (hm.1 hh).of_eq ht hp, fun hh hu => ?_, by rw [hk]; exact hm.2.2⟩
  rw [ht hu]; exact hm.2.1 hh hu

/-- What a phase leaves alone -/
def FrameL (run : Bool) (s : Tmps) (l : List Arg) (m m' : Mem V) : Prop :=
  (∀ t, (∀ a ∈ l, usesTmp run a = true → t ≠ tmpOf s a) → m'.tmp t = m.tmp t) ∧
  (∀ p, (∀ a ∈ l, optional a = true → p ≠ ptrOf s a) → m'.ptr p = m.ptr p) ∧
  (∀ k, (∀ a ∈ l, a.key ≠ k) → m'.host k = m.host k)

theorem FrameL.nil {s : Tmps} {m : Mem V} : FrameL run s [] m m := ⟨fun _ _ => rfl, fun _ _ => rfl, fun _ _ => rfl⟩

theorem FrameL.cons {s : Tmps} {a : Arg} {l : List Arg} {m m1 m2 : Mem V} (h : Frame run s a m m1) (h' : FrameL run s l m1 m2) :
    FrameL run s (a :: l) m m2 := by
  refine ⟨fun t ht => ?_, fun p hp => ?_, fun k hk => ?_⟩
  · rw [h'.1 t fun b hb => ht b (by simp [hb]), h.1 t (ht a (by simp))]
  · rw [h'.2.1 p fun b hb => hp b (by simp [hb]), h.2.1 p (hp a (by simp))]
  · rw [h'.2.2 k fun b hb => hk b (by simp [hb]), h.2.2 k (Ne.symm (hk a (by simp)))]

theorem FrameL.trans {s : Tmps} {l : List Arg} {m m1 m2 : Mem V} (h : FrameL run s l m m1) (h' : FrameL run s l m1 m2) : FrameL run s l m m2 :=
  ⟨fun t ht => by rw [h'.1 t ht, h.1 t ht], fun t ht => by rw [h'.2.1 t ht, h.2.1 t ht], fun t ht => by rw [h'.2.2 t ht, h.2.2 t ht]⟩

/-- Names of other arguments are left alone by a step. -/
theorem frame_other {s : Tmps} {a b : Arg} {L : List Arg} (sep : Sep run s L) (ha : a ∈ L) (hb : b ∈ L) (hne : a.key ≠ b.key) {m m' : Mem V}
    (f : Frame run s a m m') : (usesTmp run b = true → m'.tmp (tmpOf s b) = m.tmp (tmpOf s b)) ∧
      (optional b = true → m'.ptr (ptrOf s b) = m.ptr (ptrOf s b)) ∧ m'.host b.key = m.host b.key :=
  ⟨fun hu => f.1 _ fun hv he => hne ((sep a ha b hb).1 hv hu he.symm), fun hu => f.2.1 _ fun hv he => hne ((sep a ha b hb).2 hv hu he.symm),
   f.2.2 _ (Ne.symm hne)⟩

theorem frameL_other {s : Tmps} {b : Arg} {l L : List Arg} (sep : Sep run s L) (hl : ∀ a ∈ l, a ∈ L) (hb : b ∈ L)
    (hne : ∀ a ∈ l, a.key ≠ b.key) {m m' : Mem V} (f : FrameL run s l m m') :
    (usesTmp run b = true → m'.tmp (tmpOf s b) = m.tmp (tmpOf s b)) ∧
      (optional b = true → m'.ptr (ptrOf s b) = m.ptr (ptrOf s b)) ∧ m'.host b.key = m.host b.key :=
  ⟨fun hu => f.1 _ fun a ha hv he => hne a ha ((sep a (hl a ha) b hb).1 hv hu he.symm),
   fun hu => f.2.1 _ fun a ha hv he => hne a ha ((sep a (hl a ha) b hb).2 hv hu he.symm), f.2.2 _ hne⟩

theorem befores {s : Tmps} {L : List Arg} (sep : Sep run s L) : ∀ {l : List Arg} {m : Mem V}, (∀ a ∈ l, a ∈ L) → l.Pairwise (·.key ≠ ·.key) →
    (∀ a ∈ l, ArgOk env run m.host a) → (∀ a ∈ l, Clean run s m a) →
    ∃ m', execBlocks env m (l.map fun a => (a.cond, before run s a)) = some m' ∧ m'.host = m.host ∧
      (∀ a ∈ l, Mid env run s m.host m' a) ∧ FrameL run s l m m' := by
  intro l
  induction l with
  | nil => intro m _ _ _ _; exact ⟨m, rfl, rfl, by simp, .nil⟩
  | cons a l ih =>
    intro m hl hp hok hcl
    obtain ⟨hp1, hp2⟩ := List.pairwise_cons.1 hp
    obtain ⟨m1, e1, h1, mid1, f1⟩ := before_one (hok a (by simp)) (hcl a (by simp))
    obtain ⟨m2, e2, h2, mid2, f2⟩ := ih (m := m1) (fun b hb => hl b (by simp [hb])) hp2
      (fun b hb => by rw [h1]; exact hok b (by simp [hb]))
      (fun b hb => by
        obtain ⟨x, y, _⟩ := frame_other sep (hl a (by simp)) (hl b (by simp [hb])) (hp1 b hb) f1
        exact (hcl b (by simp [hb])).of_eq x y)
    refine ⟨m2, by rw [List.map_cons, execBlocks_cons, e1]; exact e2, by rw [h2, h1], ?_, .cons f1 f2⟩
    intro b hb
    rcases List.mem_cons.1 hb with hb | hb
    · subst hb
      obtain ⟨x, y, _⟩ := frameL_other sep (fun c hc => hl c (by simp [hc])) (hl b (by simp)) (fun c hc => Ne.symm (hp1 c hc)) f2
      exact mid1.of_eq x y
    · rw [h1] at mid2; exact mid2 b hb

theorem reads {s : Tmps} {h : Host V} {m : Mem V} : ∀ {l : List Arg}, l.Pairwise (·.loc ≠ ·.loc) → (∀ a ∈ l, ArgOk env run h a) →
    (∀ a ∈ l, Mid env run s h m a) → (∀ a ∈ l, m.host a.key = h a.key) →
    ∃ vs, readAll env m (l.map fun a => (a.loc, a.intent, actual run s a)) = some vs ∧
      (∀ a ∈ l, (env.active a.cond h = false → valOf vs a.loc = none) ∧
        (env.active a.cond h = true → ∃ w, valOf vs a.loc = some w ∧ w.length = (visible env run a.key (h a.key)).length ∧
        (a.intent ≠ .out → w = toScheme env a (visible env run a.key (h a.key))))) ∧
      (∀ d, (∀ a ∈ l, a.loc ≠ d) → valOf vs d = none) := by
  intro l
  induction l with
  | nil => intro _ _ _ _; exact ⟨[], rfl, by simp, fun _ _ => rfl⟩
  | cons a l ih =>
    intro hp hok hmid hk
    obtain ⟨hp1, hp2⟩ := List.pairwise_cons.1 hp
    obtain ⟨v, e1, v1, v2⟩ := read_one (hok a (by simp)) (hmid a (by simp)) (hk a (by simp))
    obtain ⟨vs, e2, w1, w2⟩ := ih hp2 (fun b hb => hok b (by simp [hb])) (fun b hb => hmid b (by simp [hb])) (fun b hb => hk b (by simp [hb]))
    refine ⟨(a.loc, v) :: vs, by simp [readAll, e1, e2], ?_, ?_⟩
    · intro b hb
      rcases List.mem_cons.1 hb with hb | hb
      · subst hb
        simp only [valOf, if_true]
        exact ⟨v1, v2⟩
      · simp only [valOf, if_neg (hp1 b hb)]
        exact w1 b hb
    · intro d hd
      simp only [valOf, if_neg (hd a (by simp))]
      exact w2 d fun b hb => hd b (by simp [hb])

theorem writes {s : Tmps} {h : Host V} {out : Str → List V} {L : List Arg} (sep : Sep run s L) : ∀ {l : List Arg} {m : Mem V}, (∀ a ∈ l, a ∈ L) →
    l.Pairwise (·.key ≠ ·.key) → (∀ a ∈ l, ArgOk env run h a) → (∀ a ∈ l, Mid env run s h m a) → (∀ a ∈ l, m.host a.key = h a.key) →
    (∀ a ∈ l, env.active a.cond h = true → (out a.loc).length = (visible env run a.key (h a.key)).length) →
    ∃ m', writeAll env out m (l.map fun a => (a.loc, a.intent, actual run s a)) = some m' ∧
      (∀ a ∈ l, Done env run s h (out a.loc) m' a) ∧ FrameL run s l m m' ∧ m'.ptr = m.ptr := by
  intro l
  induction l with
  | nil => intro m _ _ _ _ _ _; exact ⟨m, rfl, by simp, .nil, rfl⟩
  | cons a l ih =>
    intro m hl hp hok hmid hk hlen
    obtain ⟨hp1, hp2⟩ := List.pairwise_cons.1 hp
    obtain ⟨m1, e1, d1, f1, q1⟩ := write_one (out := out a.loc) (hok a (by simp)) (hmid a (by simp)) (hk a (by simp)) (hlen a (by simp))
    have fo := fun b (hb : b ∈ l) => frame_other sep (hl a (by simp)) (hl b (by simp [hb])) (hp1 b hb) f1
    obtain ⟨m2, e2, d2, f2, q2⟩ := ih (m := m1) (fun b hb => hl b (by simp [hb])) hp2 (fun b hb => hok b (by simp [hb]))
      (fun b hb => (hmid b (by simp [hb])).of_eq (fo b hb).1 (fo b hb).2.1)
      (fun b hb => by rw [(fo b hb).2.2]; exact hk b (by simp [hb])) (fun b hb => hlen b (by simp [hb]))
    refine ⟨m2, ?_, ?_, .cons f1 f2, by rw [q2, q1]⟩
    · rw [List.map_cons, writeAll]
      show (if a.intent = .in then some m else writeActual env m (out a.loc) (actual run s a)).bind _ = _
      rw [e1]; exact e2
    · intro b hb
      rcases List.mem_cons.1 hb with hb | hb
      · subst hb
        obtain ⟨x, y, z⟩ := frameL_other sep (fun c hc => hl c (by simp [hc])) (hl b (by simp)) (fun c hc => Ne.symm (hp1 c hc)) f2
        exact d1.of_eq x y z
      · exact d2 b hb

/-- Variables that the call only reads are the same. -/
def Agree (args : List Arg) (h h' : Host V) : Prop := ∀ k, (∀ b ∈ args, b.key = k → b.intent = .in) → h k = h' k

/-- Only the pointers of the arguments are associated with temporary variables, each with its own. -/
def PtrInv (run : Bool) (s : Tmps) (L : List Arg) (m : Mem V) : Prop :=
  ∀ p t, m.ptr p = .tmp t → ∃ b ∈ L, optional b = true ∧ usesTmp run b = true ∧ p = ptrOf s b ∧ t = tmpOf s b

theorem keys_inj {L : List Arg} (hk : L.Pairwise (·.key ≠ ·.key)) {a b : Arg} (ha : a ∈ L) (hb : b ∈ L) (h : a.key = b.key) : a = b := by
  induction L with
  | nil => cases ha
  | cons c L ih =>
    obtain ⟨h1, h2⟩ := List.pairwise_cons.1 hk
    rcases List.mem_cons.1 ha with xa | xa <;> rcases List.mem_cons.1 hb with xb | xb
    · rw [xa, xb]
    · subst xa; exact absurd h (h1 b xb)
    · subst xb; exact absurd h.symm (h1 a xa)
    · exact ih h2 xa xb

theorem ptrInv_arg {s : Tmps} {L : List Arg} (sep : Sep run s L) (hk : L.Pairwise (·.key ≠ ·.key)) {m : Mem V} (hp : PtrInv run s L m) {a : Arg}
    (ha : a ∈ L) (hu : usesTmp run a = true) : ∀ p, m.ptr p = .tmp (tmpOf s a) → optional a = true ∧ p = ptrOf s a := by
  intro p hpt
  obtain ⟨b, hb, hob, hub, h1, h2⟩ := hp p _ hpt
  have := keys_inj hk ha hb ((sep a ha b hb).1 hu hub h2)
  subst this
  exact ⟨hob, h1⟩

theorem afters {s : Tmps} {h : Host V} {out : Str → List V} {L : List Arg} (sep : Sep run s L) (hkL : L.Pairwise (·.key ≠ ·.key)) (hc : CondOk env L) :
    ∀ {l : List Arg} {m : Mem V}, (∀ a ∈ l, a ∈ L) →
    l.Pairwise (·.key ≠ ·.key) → (∀ a ∈ l, ArgOk env run h a) → (∀ a ∈ l, Done env run s h (out a.loc) m a) → Agree L h m.host →
    (∀ a ∈ l, env.active a.cond h = true → (out a.loc).length = (visible env run a.key (h a.key)).length) → PtrInv run s L m →
    ∃ m', execBlocks env m (l.map fun a => (a.cond, after run s a)) = some m' ∧
      (∀ a ∈ l, Fin env run h (out a.loc) a (m'.host a.key) ∧ Clean run s m' a) ∧ FrameL run s l m m' := by
  intro l
  induction l with
  | nil => intro m _ _ _ _ _ _ _; exact ⟨m, rfl, by simp, .nil⟩
  | cons a l ih =>
    intro m hl hp hok hdn hag hlen hpi
    obtain ⟨hp1, hp2⟩ := List.pairwise_cons.1 hp
    obtain ⟨m1, e1, n1, c1, f1, i1⟩ := after_one (hok a (by simp)) (hdn a (by simp)) (hc a (hl a (by simp)) h m.host hag).symm (hlen a (by simp))
      (ptrInv_arg sep hkL hpi (hl a (by simp)))
    have fo := fun b (hb : b ∈ l) => frame_other sep (hl a (by simp)) (hl b (by simp [hb])) (hp1 b hb) f1
    have hpi1 : PtrInv run s L m1 := by
      intro p t hpt
      by_cases hpa : optional a = true ∧ p = ptrOf s a
      · rw [hpa.2, c1.2 hpa.1] at hpt; cases hpt
      · rw [f1.2.1 p fun ho he => hpa ⟨ho, he⟩] at hpt
        exact hpi p t hpt
    have hag1 : Agree L h m1.host := by
      intro k hk
      by_cases hka : a.key = k
      · rw [i1 (hk a (hl a (by simp)) hka)]; exact hag k hk
      · rw [f1.2.2 k (Ne.symm hka)]; exact hag k hk
    obtain ⟨m2, e2, d2, f2⟩ := ih (m := m1) (fun b hb => hl b (by simp [hb])) hp2 (fun b hb => hok b (by simp [hb]))
      (fun b hb => (hdn b (by simp [hb])).of_eq (fo b hb).1 (fo b hb).2.1 (fo b hb).2.2) hag1 (fun b hb => hlen b (by simp [hb])) hpi1
    refine ⟨m2, by rw [List.map_cons, execBlocks_cons, e1]; exact e2, ?_, .cons f1 f2⟩
    intro b hb
    rcases List.mem_cons.1 hb with hb | hb
    · subst hb
      obtain ⟨x, y, z⟩ := frameL_other sep (fun c hc => hl c (by simp [hc])) (hl b (by simp)) (fun c hc => Ne.symm (hp1 c hc)) f2
      exact ⟨by rw [z]; exact n1, c1.of_eq x y⟩
    · exact d2 b hb

theorem find_loc {l : List Arg} (hp : l.Pairwise (·.loc ≠ ·.loc)) {a : Arg} (ha : a ∈ l) : l.find? (fun b => b.loc == a.loc) = some a := by
  induction l with
  | nil => cases ha
  | cons b l ih =>
    obtain ⟨hp1, hp2⟩ := List.pairwise_cons.1 hp
    rcases List.mem_cons.1 ha with ha | ha
    · subst ha; simp
    · rw [List.find?_cons_of_neg (by simpa using hp1 a ha)]; exact ih hp2 ha

theorem inputs_mem {h : Host V} {l : List Arg} (hp : l.Pairwise (·.loc ≠ ·.loc)) {a : Arg} (ha : a ∈ l) :
    inputs env run h l a.loc = if env.active a.cond h then some (toScheme env a (visible env run a.key (h a.key))) else none := by
  unfold inputs; rw [find_loc hp ha]

theorem inputs_none {h : Host V} {l : List Arg} {d : Str} (hd : ∀ a ∈ l, a.loc ≠ d) : inputs env run h l d = none := by
  unfold inputs
  rw [List.find?_eq_none.2 (by simpa using hd)]

/-- A call -/
theorem call_main {s : Tmps} {args : List Arg} {S : Scheme V} {m : Mem V} (sep : Sep run s args) (hk : args.Pairwise (·.key ≠ ·.key))
    (hloc : args.Pairwise (·.loc ≠ ·.loc)) (hok : ∀ a ∈ args, ArgOk env run m.host a) (hc : CondOk env args) (hS : SchemeOk S args)
    (hcl : ∀ a ∈ args, Clean run s m a) (hnull : ∀ p, m.ptr p = .null) :
    ∃ m', execCall env S (codeOf run s args) m = some m' ∧ CallSpec env run S args m.host m'.host ∧
      (∀ a ∈ args, Clean run s m' a) ∧ FrameL run s args m m' ∧ ∀ p, m'.ptr p = .null := by
  obtain ⟨m1, e1, h1, mid1, f1⟩ := befores sep (fun _ h => h) hk hok hcl
  obtain ⟨vs, e2, r1, r2⟩ := reads hloc hok mid1 (fun a _ => by rw [h1])
  have hSeq : S (valOf vs) = S (inputs env run m.host args) := by
    apply hS.out
    · intro d
      by_cases hd : ∃ a ∈ args, a.loc = d
      · obtain ⟨a, ha, hd⟩ := hd
        subst hd
        rw [inputs_mem hloc ha]
        cases hact : env.active a.cond m.host with
        | true =>
          obtain ⟨w, hw, hl, _⟩ := (r1 a ha).2 hact
          simp [hw, hl, toScheme_length]
        | false => simp [(r1 a ha).1 hact]
      · rw [r2 d (fun a ha he => hd ⟨a, ha, he⟩), inputs_none (fun a ha he => hd ⟨a, ha, he⟩)]
    · intro d hout
      by_cases hd : ∃ a ∈ args, a.loc = d
      · obtain ⟨a, ha, hd⟩ := hd
        subst hd
        rw [inputs_mem hloc ha]
        cases hact : env.active a.cond m.host with
        | true =>
          obtain ⟨w, hw, _, hl⟩ := (r1 a ha).2 hact
          simp [hw, hl (hout a ha rfl)]
        | false => simp [(r1 a ha).1 hact]
      · rw [r2 d (fun a ha he => hd ⟨a, ha, he⟩), inputs_none (fun a ha he => hd ⟨a, ha, he⟩)]
  have hlen : ∀ a ∈ args, env.active a.cond m.host = true →
      (S (inputs env run m.host args) a.loc).length = (visible env run a.key (m.host a.key)).length := by
    intro a ha hact
    have : inputs env run m.host args a.loc = some (toScheme env a (visible env run a.key (m.host a.key))) := by
      rw [inputs_mem hloc ha, if_pos hact]
    rw [hS.size _ _ _ this, toScheme_length]
  obtain ⟨m2, e3, d2, f2, q2⟩ := writes (out := S (inputs env run m.host args)) sep (fun _ h => h) hk hok mid1 (fun a _ => by rw [h1]) hlen
  have hpi : PtrInv run s args m2 := by
    intro p t hpt
    rw [q2] at hpt
    by_cases hd : ∃ a ∈ args, optional a = true ∧ p = ptrOf s a
    · obtain ⟨a, ha, ho, hp⟩ := hd
      subst hp
      cases hact : env.active a.cond m.host with
      | false => rw [((mid1 a ha).1 hact).2 ho] at hpt; cases hpt
      | true =>
        rw [((mid1 a ha).2 hact).2.1 ho] at hpt
        cases hu : usesTmp run a with
        | false => rw [hu] at hpt; cases hpt
        | true => rw [hu] at hpt; cases hpt; exact ⟨a, ha, ho, hu, rfl, rfl⟩
    · rw [f1.2.1 p fun a ha ho he => hd ⟨a, ha, ho, he⟩, hnull] at hpt; cases hpt
  have hag : Agree args m.host m2.host := by
    intro k hki
    by_cases hd : ∃ a ∈ args, a.key = k
    · obtain ⟨a, ha, hd⟩ := hd
      subst hd
      rw [(d2 a ha).2.2, if_neg (by simp [hki a ha rfl])]
    · rw [f2.2.2 k (fun a ha he => hd ⟨a, ha, he⟩), h1]
  obtain ⟨m3, e4, n3, f3⟩ := afters sep hk hc (fun _ h => h) hk hok d2 hag hlen hpi
  refine ⟨m3, ?_, ⟨?_, ?_, ?_, ?_, ?_⟩, fun a ha => (n3 a ha).2, (f1.trans f2).trans f3, fun p => ?_⟩
  · unfold execCall codeOf
    simp only [e1, Option.bind_some, e2, hSeq, e3, e4]
  · intro k hkk
    exact ((f1.trans f2).trans f3).2.2 k hkk
  · intro a ha; exact (n3 a ha).1.1
  · intro a ha; exact (n3 a ha).1.2.1
  · intro hr a ha; exact (n3 a ha).1.2.2.1 hr
  · intro a ha; exact (n3 a ha).1.2.2.2
  · by_cases hd : ∃ a ∈ args, optional a = true ∧ p = ptrOf s a
    · obtain ⟨a, ha, ho, hp⟩ := hd
      subst hp
      exact (n3 a ha).2.2 ho
    · rw [((f1.trans f2).trans f3).2.1 p fun a ha ho he => hd ⟨a, ha, ho, he⟩, hnull]

end Ccpp.PV
