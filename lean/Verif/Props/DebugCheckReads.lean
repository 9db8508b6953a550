import Verif.Props.DebugCheckThm
/-! # C83: what the checks read and change -/
namespace Ccpp.DC
open PB (Str)

variable {ev : Str → (Str → Option Int) → Bool} {c : Ctx} {k : Check} {s : State}

/-- Two states that differ at most in the variables `I`. -/
def Same (I : List Str) (s s' : State) : Prop := s'.arr = s.arr ∧ ∀ n, n ∉ I → s'.mem n = s.mem n

theorem num_same {I : List Str} {s s' : State} (h : Same I s s') {n : Str} (hn : n ∈ I → n = "1".toList) : s'.num n = s.num n := by
  unfold State.num
  by_cases h1 : n = "1".toList
  · rw [if_pos h1, if_pos h1]
  · rw [if_neg h1, if_neg h1]
    exact h.2 n fun hi => h1 (hn hi)

theorem ext_same {I : List Str} {s s' : State} (h : Same I s s') {u l : Str} (hu : u ∈ I → u = "1".toList) (hl : l ∈ I → l = "1".toList) :
    s'.ext u l = s.ext u l := by
  unfold State.ext; rw [num_same h hu, num_same h hl]

theorem ix_same {I : List Str} {s s' : State} (h : Same I s s') (x : Ix) (hx : ∀ n ∈ x.reads, n ∈ I → n = "1".toList) : x.eval s' = x.eval s := by
  cases x with
  | nm n => exact num_same h (hx n (by simp [Ix.reads]))
  | one => rfl
  | ext u l => exact ext_same h (hx u (by simp [Ix.reads])) (hx l (by simp [Ix.reads]))

theorem len_same {I : List Str} {s s' : State} (h : Same I s s') (x : Len) (hx : ∀ n ∈ x.reads, n ∈ I → n = "1".toList) : x.eval s' = x.eval s := by
  cases x with
  | one => rfl
  | ext u l => exact ext_same h (hx u (by simp [Len.reads])) (hx l (by simp [Len.reads]))

theorem sub_same {I : List Str} {s s' : State} (h : Same I s s') (b : Int × Int) (x : Sub) (hx : ∀ n ∈ x.reads, n ∈ I → n = "1".toList) :
    x.size s' b = x.size s b := by
  cases x with
  | all => rfl
  | «at» n => simp only [Sub.size]; rw [num_same h (hx n (by simp [Sub.reads]))]
  | rng l u => simp only [Sub.size]; rw [num_same h (hx l (by simp [Sub.reads])), num_same h (hx u (by simp [Sub.reads]))]

theorem section_same {I : List Str} {s s' : State} (h : Same I s s') (a : Arr) (subs : List Sub)
    (hx : ∀ x ∈ subs, ∀ n ∈ x.reads, n ∈ I → n = "1".toList) : sectionSize s' a subs = sectionSize s a subs := by
  unfold sectionSize
  have : (subs.zip a.bounds).map (fun p => p.1.size s' p.2) = (subs.zip a.bounds).map (fun p => p.1.size s p.2) := by
    apply List.map_congr_left
    intro p hp
    exact sub_same h p.2 p.1 (hx p.1 (List.of_mem_zip hp).1)
  rw [this]

theorem ixs_same {I : List Str} {s s' : State} (h : Same I s s') (l : List Ix) (hx : ∀ x ∈ l, ∀ n ∈ x.reads, n ∈ I → n = "1".toList) :
    l.map (Ix.eval s') = l.map (Ix.eval s) :=
  List.map_congr_left fun x hxl => ix_same h x (hx x hxl)

theorem lens_same {I : List Str} {s s' : State} (h : Same I s s') (l : List Len) (hx : ∀ x ∈ l, ∀ n ∈ x.reads, n ∈ I → n = "1".toList) :
    l.map (Len.eval s') = l.map (Len.eval s) :=
  List.map_congr_left fun x hxl => len_same h x (hx x hxl)

theorem same_set (I : List Str) (s : State) (n : Str) (v : Int) (h : n ∈ I) : Same I s (s.set n v) := by
  refine ⟨rfl, fun m hm => ?_⟩
  simp only [State.set]
  rw [if_neg]
  rintro rfl
  exact hm h

theorem Same.refl (I : List Str) (s : State) : Same I s s := ⟨rfl, fun _ _ => rfl⟩
theorem Same.trans {I : List Str} {a b d : State} (h : Same I a b) (h2 : Same I b d) : Same I a d :=
  ⟨h2.1.trans h.1, fun n hn => (h2.2 n hn).trans (h.2 n hn)⟩

/-- Two outcomes of the same kind. -/
inductive Alike (I : List Str) : Outcome → Outcome → Prop
  | cont {a b : State} : Same I a b → Alike I (.cont a) (.cont b)
  | stop {x y z : Int} : Alike I (.stop x y z) (.stop x y z)
  | undef : Alike I .undef .undef

theorem set_alike {I : List Str} {s s' : State} (h : Same I s s') (n : Str) (v : Int) : Same I (s.set n v) (s'.set n v) := by
  refine ⟨h.1, fun m hm => ?_⟩
  simp only [State.set]
  split
  · rfl
  · exact h.2 m hm

theorem assign_alike {I : List Str} {s s' : State} (h : Same I s s') (d : Str) (o : Option Int) : Alike I (assign s d o) (assign s' d o) := by
  cases o with
  | none => exact .undef
  | some v => exact .cont (set_alike h d v)

/-- The literal 1 is no variable. -/
def NoLit (I : List Str) : Prop := "1".toList ∉ I

theorem basic_alike {I : List Str} (hI : NoLit I) {s s' : State} (h : Same I s s') (b : Basic)
    (hx : ∀ n ∈ b.reads, n ∈ I → n = "1".toList) : Alike I (b.exec s) (b.exec s') := by
  cases b with
  | copy d x =>
    simp only [Basic.exec]
    have : s'.mem x = s.mem x := h.2 x fun hi => by
      have e := hx x (by simp [Basic.reads]) hi
      rw [e] at hi; exact hI hi
    rw [this]; exact assign_alike h d _
  | check x subs lens =>
    simp only [Basic.exec]
    rw [h.1]
    cases s.arr x with
    | none => exact .undef
    | some a =>
      simp only
      rw [section_same h a subs fun y hy n hn => hx n (by simp only [Basic.reads, List.mem_append, List.mem_flatMap]; exact Or.inl ⟨y, hy, hn⟩),
        lens_same h lens fun y hy n hn => hx n (by simp only [Basic.reads, List.mem_append, List.mem_flatMap]; exact Or.inr ⟨y, hy, hn⟩)]
      cases sectionSize s a subs <;> cases allSome (lens.map (Len.eval s)) <;> simp only
      all_goals first | exact .undef | skip
      split
      · exact .stop
      · exact .cont h
  | elem d x ixs =>
    simp only [Basic.exec]
    rw [h.1, ixs_same h ixs fun y hy n hn => hx n (by simp only [Basic.reads, List.mem_flatMap]; exact ⟨y, hy, hn⟩)]
    cases s.arr x <;> cases allSome (ixs.map (Ix.eval s)) <;> simp only
    all_goals first | exact .undef | exact assign_alike h d _

theorem execL_alike {I : List Str} (hI : NoLit I) : ∀ (bs : List Basic) {s s' : State}, Same I s s' →
    (∀ b ∈ bs, ∀ n ∈ b.reads, n ∈ I → n = "1".toList) → Alike I (execL s bs) (execL s' bs) := by
  intro bs
  induction bs with
  | nil => intro s s' h _; exact .cont h
  | cons b bs ih =>
    intro s s' h hx
    have := basic_alike hI h b (hx b (by simp))
    simp only [execL]
    cases h1 : b.exec s <;> cases h2 : b.exec s' <;> rw [h1, h2] at this <;> cases this
    · rename_i hs; exact ih hs fun b' hb => hx b' (by simp [hb])
    · exact .stop
    · exact .undef

theorem guarded_alike {I : List Str} (hI : NoLit I) (hev : ∀ t m m', (∀ n, n ∉ I → m' n = m n) → ev t m' = ev t m) (g : Guarded) {s s' : State}
    (h : Same I s s') (hx : ∀ b ∈ g.body, ∀ n ∈ b.reads, n ∈ I → n = "1".toList) : Alike I (g.exec ev s) (g.exec ev s') := by
  unfold Guarded.exec
  cases g.cond with
  | none => exact execL_alike hI _ h hx
  | some t =>
    simp only
    rw [hev t s.mem s'.mem h.2]
    split
    · exact execL_alike hI _ h hx
    · exact .cont h

theorem execG_alike {I : List Str} (hI : NoLit I) (hev : ∀ t m m', (∀ n, n ∉ I → m' n = m n) → ev t m' = ev t m) :
    ∀ (gs : List Guarded) {s s' : State}, Same I s s' → ReadsNone I gs → Alike I (execG ev s gs) (execG ev s' gs) := by
  intro gs
  induction gs with
  | nil => intro s s' h _; exact .cont h
  | cons g gs ih =>
    intro s s' h hx
    have := guarded_alike hI hev g h (hx g (by simp))
    simp only [execG]
    cases h1 : g.exec ev s <;> cases h2 : g.exec ev s' <;> rw [h1, h2] at this <;> cases this
    · rename_i hs; exact ih hs fun g' hg => hx g' (by simp [hg])
    · exact .stop
    · exact .undef

/-- The variables that a statement assigns. -/
def Basic.writes : Basic → List Str
  | .copy d _ => [d]
  | .check _ _ _ => []
  | .elem d _ _ => [d]

theorem basic_frame {I : List Str} {s s' : State} (b : Basic) (hw : ∀ n ∈ b.writes, n ∈ I) (h : b.exec s = .cont s') : Same I s s' := by
  have ha : ∀ (d : Str) (o : Option Int), d ∈ I → assign s d o = .cont s' → Same I s s' := by
    intro d o hd h
    cases o with
    | none => cases h
    | some v => cases h; exact same_set I s d v hd
  cases b with
  | copy d x => exact ha d _ (hw d (by simp [Basic.writes])) h
  | check x subs lens =>
    simp only [Basic.exec] at h
    cases h0 : s.arr x with
    | none => rw [h0] at h; cases h
    | some a =>
      rw [h0] at h
      simp only at h
      cases h1 : sectionSize s a subs <;> cases h2 : allSome (lens.map (Len.eval s)) <;> rw [h1, h2] at h <;> simp only at h
      all_goals first | cases h | skip
      split at h
      · cases h
      · cases h; exact Same.refl I s
  | elem d x ixs =>
    simp only [Basic.exec] at h
    split at h
    · exact ha d _ (hw d (by simp [Basic.writes])) h
    · cases h

theorem execL_frame {I : List Str} : ∀ (bs : List Basic) {s s' : State}, (∀ b ∈ bs, ∀ n ∈ b.writes, n ∈ I) → execL s bs = .cont s' → Same I s s' := by
  intro bs
  induction bs with
  | nil => intro s s' _ h; cases h; exact Same.refl I s
  | cons b bs ih =>
    intro s s' hw h
    simp only [execL] at h
    cases h1 : b.exec s with
    | cont s1 =>
      rw [h1] at h
      exact (basic_frame b (hw b (by simp)) h1).trans (ih (fun b' hb => hw b' (by simp [hb])) h)
    | stop x y z => rw [h1] at h; cases h
    | undef => rw [h1] at h; cases h

theorem execG_frame {I : List Str} : ∀ (gs : List Guarded) {s s' : State}, (∀ g ∈ gs, ∀ b ∈ g.body, ∀ n ∈ b.writes, n ∈ I) →
    execG ev s gs = .cont s' → Same I s s' := by
  intro gs
  induction gs with
  | nil => intro s s' _ h; cases h; exact Same.refl I s
  | cons g gs ih =>
    intro s s' hw h
    simp only [execG] at h
    cases h1 : g.exec ev s with
    | cont s1 =>
      rw [h1] at h
      refine Same.trans ?_ (ih (fun g' hg => hw g' (by simp [hg])) h)
      unfold Guarded.exec at h1
      split at h1
      · exact execL_frame _ (hw g (by simp)) h1
      · split at h1
        · exact execL_frame _ (hw g (by simp)) h1
        · cases h1; exact Same.refl I s
    | stop x y z => rw [h1] at h; cases h
    | undef => rw [h1] at h; cases h

theorem emit_writes {gs : List Guarded} (h : emit c k = .ok gs) : ∀ g ∈ gs, ∀ b ∈ g.body, ∀ n ∈ b.writes, n = k.ivar := by
  rcases emit_inv h with rfl | ⟨t, ns, hc, l, ⟨i, h1, h2, rfl⟩ | ⟨i, ps, h1, rfl⟩⟩
  · simp
  · simp [Basic.writes]
  · unfold arrayCode
    split <;> simp [Basic.writes]

/-- C83. The debug code changes no variable of the model: if the group goes on, everything but the internal variable is as before. -/
theorem C83_frame {gs : List Guarded} {s' : State} (h : emit c k = .ok gs) (hs : execG ev s gs = .cont s') :
    s'.arr = s.arr ∧ ∀ n, n ≠ k.ivar → s'.mem n = s.mem n := by
  have := execG_frame (I := [k.ivar]) gs (fun g hg b hb n hn => by simp [emit_writes h g hg b hb n hn]) hs
  exact ⟨this.1, fun n hn => this.2 n (by simpa using hn)⟩

theorem execG_append (gs hs : List Guarded) (s : State) :
    execG ev s (gs ++ hs) = match execG ev s gs with | .cont s' => execG ev s' hs | o => o := by
  induction gs generalizing s with
  | nil => rfl
  | cons g gs ih =>
    simp only [List.cons_append, execG]
    cases g.exec ev s with
    | cont s1 => exact ih s1
    | stop x y z => rfl
    | undef => rfl

/-- C83, all checks of a scheme. The checks of a scheme are independent of each other: the scheme is reached if and only if every check alone lets the
group go on, and otherwise the group does what the first of the other checks does.  `I` are the internal variables; no statement reads them and the
conditions do not depend on them. -/
theorem C83_block {I : List Str} (hI : NoLit I) (hev : ∀ t m m', (∀ n, n ∉ I → m' n = m n) → ev t m' = ev t m) :
    ∀ (ks : List Check) (gs : List Guarded), emitAll c ks = .ok gs → (∀ k ∈ ks, k.ivar ∈ I) → ReadsNone I gs →
      ((∀ k ∈ ks, ∃ g, emit c k = .ok g ∧ Quiet I s (execG ev s g)) ∧ Quiet I s (execG ev s gs)) ∨
      ∃ pre k post g, ks = pre ++ k :: post ∧ (∀ j ∈ pre, ∃ gj, emit c j = .ok gj ∧ Quiet I s (execG ev s gj)) ∧
        emit c k = .ok g ∧ (∀ s', execG ev s g ≠ .cont s') ∧ execG ev s gs = execG ev s g := by
  have main : ∀ (ks : List Check) (gs : List Guarded) (s1 : State), Same I s s1 → emitAll c ks = .ok gs → (∀ k ∈ ks, k.ivar ∈ I) →
      ReadsNone I gs →
      ((∀ k ∈ ks, ∃ g, emit c k = .ok g ∧ Quiet I s (execG ev s g)) ∧ Quiet I s (execG ev s1 gs)) ∨
      ∃ pre k post g, ks = pre ++ k :: post ∧ (∀ j ∈ pre, ∃ gj, emit c j = .ok gj ∧ Quiet I s (execG ev s gj)) ∧
        emit c k = .ok g ∧ (∀ s', execG ev s g ≠ .cont s') ∧ execG ev s1 gs = execG ev s g := by
    intro ks
    induction ks with
    | nil =>
      intro gs s1 hs h _ _
      cases h
      exact Or.inl ⟨by simp, s1, rfl, hs.1, hs.2⟩
    | cons k ks ih =>
      intro gs s1 hs h hk hr
      simp only [emitAll] at h
      cases h1 : emit c k with
      | error e => rw [h1] at h; cases h
      | ok g =>
        cases h2 : emitAll c ks with
        | error e => rw [h1, h2] at h; cases h
        | ok g2 =>
          rw [h1, h2] at h
          cases h
          have hrg : ReadsNone I g := fun x hx => hr x (by simp [hx])
          have hrg2 : ReadsNone I g2 := fun x hx => hr x (by simp [hx])
          have hal := execG_alike hI hev g hs hrg
          rw [execG_append]
          cases h3 : execG ev s g with
          | cont s2 =>
            have hf2 : Same I s s2 := execG_frame g (fun x hx b hb n hn => by rw [emit_writes h1 x hx b hb n hn]; exact hk k (by simp)) h3
            cases h4 : execG ev s1 g with
            | stop x y z => rw [h3, h4] at hal; cases hal
            | undef => rw [h3, h4] at hal; cases hal
            | cont s3 =>
              have hf3 : Same I s1 s3 := execG_frame g (fun x hx b hb n hn => by rw [emit_writes h1 x hx b hb n hn]; exact hk k (by simp)) h4
              simp only
              rcases ih g2 s3 (hs.trans hf3) h2 (fun j hj => hk j (by simp [hj])) hrg2 with ⟨ha, hb⟩ | ⟨pre, j, post, gj, e1, e2, e3, e4, e5⟩
              · refine Or.inl ⟨fun j hj => ?_, hb⟩
                rcases List.mem_cons.mp hj with rfl | hj
                · exact ⟨g, h1, s2, h3, hf2.1, hf2.2⟩
                · exact ha j hj
              · refine Or.inr ⟨k :: pre, j, post, gj, by simp [e1], fun x hx => ?_, e3, e4, e5⟩
                rcases List.mem_cons.mp hx with rfl | hx
                · exact ⟨g, h1, s2, h3, hf2.1, hf2.2⟩
                · exact e2 x hx
          | stop x y z =>
            cases h4 : execG ev s1 g <;> rw [h3, h4] at hal <;> cases hal
            exact Or.inr ⟨[], k, ks, g, rfl, by simp, h1, (fun s' h => by rw [h3] at h; cases h), by rw [h3]⟩
          | undef =>
            cases h4 : execG ev s1 g <;> rw [h3, h4] at hal <;> cases hal
            exact Or.inr ⟨[], k, ks, g, rfl, by simp, h1, (fun s' h => by rw [h3] at h; cases h), by rw [h3]⟩
  intro ks gs h1 h2 h3
  exact main ks gs s (Same.refl I s) h1 h2 h3

end Ccpp.DC
