import Verif.Spec.PrebuildFiles
/-!
# C73: the files that prebuild writes
-/
namespace Ccpp.PF

/-! ## The disk -/

theorem put_same (d : Disk) (f : Str) (x : Option File) : (d.put f x).files f = x := by simp [Disk.put]

theorem put_other (d : Disk) {f g : Str} (x : Option File) (h : g ≠ f) : (d.put f x).files g = d.files g := by simp [Disk.put, h]

theorem put_now (d : Disk) (f : Str) (x : Option File) : (d.put f x).now = d.now := rfl

theorem NotFuture.putNone {d : Disk} (h : NotFuture d) (f : Str) : NotFuture (d.put f none) := by
  intro g x hg
  by_cases hgf : g = f
  · rw [hgf, put_same] at hg; cases hg
  · rw [put_other d none hgf] at hg; exact h g x hg

theorem NotFuture.move {d : Disk} (h : NotFuture d) {a b : Str} {x : File} (ha : d.files a = some x) :
    NotFuture ((d.put a none).put b (some x)) := by
  intro g y hg
  by_cases hgb : g = b
  · rw [hgb, put_same] at hg; cases hg; exact h a x ha
  · rw [put_other _ _ hgb] at hg; exact h.putNone a g y hg

/-- The disk after writing a file -/
def wrote (step : Nat) (d : Disk) (f text : Str) : Disk := { d.put f (some ⟨text, d.now⟩) with now := d.now + step }

theorem wrote_same (step : Nat) (d : Disk) (f text : Str) : (wrote step d f text).files f = some ⟨text, d.now⟩ := put_same ..

theorem wrote_other (step : Nat) (d : Disk) {f g : Str} (text : Str) (h : g ≠ f) : (wrote step d f text).files g = d.files g := put_other _ _ h

theorem NotFuture.wrote {d : Disk} (h : NotFuture d) {step : Nat} (hs : 0 < step) (f text : Str) : NotFuture (wrote step d f text) := by
  intro g x hg
  show x.mtime < d.now + step
  by_cases hgf : g = f
  · rw [hgf, wrote_same] at hg; cases hg; show d.now < d.now + step; omega
  · rw [wrote_other step d text hgf] at hg; have := h g x hg; omega

/-- A run that stops leaves no file from the future. -/
theorem stops_notFuture {step : Nat} (hs : 0 < step) : ∀ (p : Prog) {d e : Disk}, NotFuture d → stops step p d e → NotFuture e
  | .done, d, e, h, hst => by cases hst; exact h
  | .write f text k, d, e, h, hst => by
    rcases hst with rfl | ⟨n, rfl⟩ | hst
    · exact h
    · exact h.wrote hs f (text.take n)
    · exact stops_notFuture hs k (h.wrote hs f text) hst
  | .remove f k, d, e, h, hst => by
    rcases hst with rfl | ⟨_, hst⟩
    · exact h
    · exact stops_notFuture hs k (h.putNone f) hst
  | .rename a b k, d, e, h, hst => by
    rcases hst with rfl | ⟨x, hx, hst⟩
    · exact h
    · exact stops_notFuture hs k (h.move hx) hst
  | .ifFile f yes no, d, e, h, hst => by
    rcases hst with rfl | ⟨_, hst⟩ | ⟨_, hst⟩
    · exact h
    · exact stops_notFuture hs yes h hst
    · exact stops_notFuture hs no h hst
  | .ifSame f g yes no, d, e, h, hst => by
    rcases hst with rfl | ⟨x, y, _, _, ⟨_, hst⟩ | ⟨_, hst⟩⟩
    · exact h
    · exact stops_notFuture hs yes h hst
    · exact stops_notFuture hs no h hst

/-- A complete run is a run that stops at its end. -/
theorem exec_stops {step : Nat} : ∀ (p : Prog) {d e : Disk}, exec step p d = some e → stops step p d e
  | .done, d, e, h => by cases h; rfl
  | .write f text k, d, e, h => Or.inr (Or.inr (exec_stops k h))
  | .remove f k, d, e, h => by
    unfold exec at h
    split at h
    · rename_i hf; exact Or.inr ⟨hf, exec_stops k h⟩
    · cases h
  | .rename a b k, d, e, h => by
    unfold exec at h
    split at h
    · rename_i x hx; exact Or.inr ⟨x, hx, exec_stops k h⟩
    · cases h
  | .ifFile f yes no, d, e, h => by
    unfold exec at h
    split at h
    · rename_i hf; exact Or.inr (Or.inl ⟨hf, exec_stops yes h⟩)
    · rename_i hf; exact Or.inr (Or.inr ⟨by simpa using hf, exec_stops no h⟩)
  | .ifSame f g yes no, d, e, h => by
    unfold exec at h
    split at h
    · rename_i x y hx hy
      split at h
      · rename_i hs; exact Or.inr ⟨x, y, hx, hy, Or.inl ⟨hs, exec_stops yes h⟩⟩
      · rename_i hs; exact Or.inr ⟨x, y, hx, hy, Or.inr ⟨by simpa using hs, exec_stops no h⟩⟩
    · cases h

/-! ## Temporary names -/

theorem test_ne (f : Str) : test f ≠ f := by
  intro h
  have := congrArg List.length h
  simp [test] at this

theorem tmp_ne (f : Str) : tmp f ≠ f := by
  intro h
  have := congrArg List.length h
  simp [tmp] at this

theorem tmp_inj {f g : Str} (h : tmp f = tmp g) : f = g := List.append_cancel_right h

/-- Only the files `l` and their temporary files have changed -/
def Keeps (l : List Str) (d e : Disk) : Prop := ∀ g, (∀ f ∈ l, g ≠ f ∧ g ≠ test f ∧ g ≠ tmp f) → e.files g = d.files g

theorem Keeps.refl (l : List Str) (d : Disk) : Keeps l d d := fun _ _ => rfl

theorem Keeps.trans {l l' : List Str} {d e f : Disk} (h : Keeps l d e) (h' : Keeps l' e f) : Keeps (l ++ l') d f := by
  intro g hg
  rw [h' g fun x hx => hg x (List.mem_append_right _ hx), h g fun x hx => hg x (List.mem_append_left _ hx)]

/-- No file of `l` is one of `l'` or a temporary file of it -/
def Away (l l' : List Str) : Prop := ∀ g ∈ l, ∀ f ∈ l', g ≠ f ∧ g ≠ test f ∧ g ≠ tmp f

theorem Keeps.holds {l : List Str} {d e : Disk} (h : Keeps l d e) {f text : Str} (ha : Away [f] l) : Holds d f text ↔ Holds e f text := by
  unfold Holds
  rw [h f (ha f (by simp))]

/-! ## One file -/

/-- What is known after a file was updated -/
structure Updated (force : Bool) (f text : Str) (d : Disk) (b : Bool) (e : Disk) : Prop where
  holds : Holds e f text
  keeps : Keeps [f] d e
  future : NotFuture e
  later : d.now ≤ e.now
  old : b = false → e.files f = d.files f
  new : b = true → ∃ x, e.files f = some x ∧ d.now ≤ x.mtime
  forced : force = true → b = true
  equal : force = false → Holds d f text → b = false

theorem same_iff {x y : File} (h : x.mtime ≠ y.mtime) : same x y = decide (x.text = y.text) := by
  unfold same
  simp [h]

theorem update_spec {step : Nat} (hs : 0 < step) (force : Bool) (f text : Str) {d : Disk} (hd : NotFuture d) :
    ∃ b e, Updated force f text d b e ∧ ∀ k, exec step (update force f text k) d = exec step (k b) e := by
  have fresh : ∀ frc, (frc = false → d.files f = none) → Updated frc f text d true (wrote step d f text) := by
    intro frc hn
    refine ⟨⟨d.now, wrote_same ..⟩, ?_, hd.wrote hs f text, ?_, (fun h => nomatch h), fun _ => ⟨_, wrote_same .., Nat.le_refl _⟩, fun _ => rfl, ?_⟩
    · intro g hg; exact wrote_other step d text (hg f (by simp)).1
    · show d.now ≤ d.now + step; omega
    · rintro hf ⟨t, ht⟩
      rw [hn hf] at ht; cases ht
  cases force with
  | true => exact ⟨true, wrote step d f text, fresh true (fun h => by cases h), fun k => rfl⟩
  | false =>
    cases hf : d.files f with
    | none =>
      refine ⟨true, wrote step d f text, fresh false (fun _ => hf), fun k => ?_⟩
      simp only [update, Bool.false_eq_true, if_false, exec, hf, Option.isSome_none, if_false]
      rfl
    | some x =>
      have hx := hd f x hf
      have hne := test_ne f
      have h1 : (wrote step d (test f) text).files f = some x := (wrote_other step d text hne.symm).trans hf
      have h2 : (wrote step d (test f) text).files (test f) = some ⟨text, d.now⟩ := wrote_same ..
      have hw := hd.wrote hs (test f) text
      have hsame : same x ⟨text, d.now⟩ = decide (x.text = text) := same_iff (by simp; omega)
      have hex : ∀ k, exec step (update false f text k) d =
          exec step (.ifSame f (test f) (.remove (test f) (k false)) (.remove f (.rename (test f) f (k true)))) (wrote step d (test f) text) := by
        intro k
        simp only [update, Bool.false_eq_true, if_false, exec, hf, Option.isSome_some, if_true]
        rfl
      by_cases heq : x.text = text
      · refine ⟨false, (wrote step d (test f) text).put (test f) none, ?_, ?_⟩
        · have hff : ((wrote step d (test f) text).put (test f) none).files f = some x := (put_other _ _ hne.symm).trans h1
          refine ⟨⟨x.mtime, ?_⟩, ?_, hw.putNone _, ?_, fun _ => hff.trans hf.symm, (fun h => nomatch h), (fun h => nomatch h), fun _ _ => rfl⟩
          · rw [hff, ← heq]
          · intro g hg
            have := hg f (by simp)
            rw [put_other _ _ this.2.1, wrote_other step d text this.2.1]
          · show d.now ≤ d.now + step; omega
        · intro k
          rw [hex]
          simp only [exec, h1, h2, hsame, heq, decide_true, if_true, Option.isSome_some]
      · refine ⟨true, (((wrote step d (test f) text).put f none).put (test f) none).put f (some ⟨text, d.now⟩), ?_, ?_⟩
        · refine ⟨⟨d.now, put_same ..⟩, ?_, ?_, ?_, (fun h => nomatch h), fun _ => ⟨_, put_same .., Nat.le_refl _⟩, (fun h => nomatch h), ?_⟩
          · intro g hg
            have := hg f (by simp)
            rw [put_other _ _ this.1, put_other _ _ this.2.1, put_other _ _ this.1, wrote_other step d text this.2.1]
          · refine (hw.putNone f).move ?_
            rw [put_other _ _ hne, h2]
          · show d.now ≤ d.now + step; omega
          · rintro _ ⟨t, ht⟩
            rw [hf] at ht; cases ht; exact absurd rfl heq
        · intro k
          rw [hex]
          have h3 : ((wrote step d (test f) text).put f none).files (test f) = some ⟨text, d.now⟩ := by
            rw [put_other _ _ hne, h2]
          simp only [exec, h1, h2, hsame, heq, decide_false, Bool.false_eq_true, if_false, Option.isSome_some, if_true, h3]

/-! ## Three files -/

/-- The three names differ, also from the temporary names -/
def TripleOk (n : Triple) : Prop := (three n).Nodup ∧ ∀ f ∈ three n, ∀ g ∈ three n, f ≠ tmp g

theorem removeIf_exec {step : Nat} (f : Str) (k : Prog) (d : Disk) : exec step (removeIf f k) d = exec step k (d.put f none) := by
  unfold removeIf
  simp only [exec]
  cases hf : d.files f with
  | some x => simp
  | none =>
    simp only [Option.isSome_none, Bool.false_eq_true, if_false]
    congr 1
    unfold Disk.put
    cases d
    simp only [Disk.mk.injEq, and_true]
    funext g
    split
    · rename_i h; rw [h]; exact hf
    · rfl

/-- What is known after three files were updated -/
structure Updated3 (n c : Triple) (d e : Disk) : Prop where
  make : Holds e n.make c.make
  both : Together d (n, c) → Holds e n.cmake c.cmake ∧ Holds e n.source c.source
  keeps : Keeps (three n) d e
  future : NotFuture e
  later : d.now ≤ e.now
  equal : Holds d n.make c.make → ∀ f ∈ three n, e.files f = d.files f
  fate : (∀ f ∈ three n, e.files f = d.files f) ∨ HoldsAll e (n, c)

theorem snippet_spec {step : Nat} (hs : 0 < step) {n : Triple} (hn : TripleOk n) (c : Triple) {d : Disk} (hd : NotFuture d) :
    ∃ e, Updated3 n c d e ∧ ∀ k, exec step (snippet n c k) d = exec step k e := by
  obtain ⟨hnd, hnt⟩ := hn
  simp only [three, List.nodup_cons, List.mem_cons, List.not_mem_nil, or_false, not_or, not_false_eq_true, List.nodup_nil, and_true] at hnd
  obtain ⟨⟨n12, n13⟩, n23⟩ := hnd
  have hm : n.make ∈ three n := by simp [three]
  have hc : n.cmake ∈ three n := by simp [three]
  have hr : n.source ∈ three n := by simp [three]
  have m1 := hnt _ hm _ hm; have m2 := hnt _ hm _ hc; have m3 := hnt _ hm _ hr
  have c1 := hnt _ hc _ hm; have c2 := hnt _ hc _ hc; have c3 := hnt _ hc _ hr
  have r1 := hnt _ hr _ hm; have r2 := hnt _ hr _ hc; have r3 := hnt _ hr _ hr
  have t12 : tmp n.make ≠ tmp n.cmake := fun h => n12 (tmp_inj h)
  have t13 : tmp n.make ≠ tmp n.source := fun h => n13 (tmp_inj h)
  have t23 : tmp n.cmake ≠ tmp n.source := fun h => n23 (tmp_inj h)
  -- after writing the three temporary files
  let d3 := wrote step (wrote step (wrote step d (tmp n.make) c.make) (tmp n.cmake) c.cmake) (tmp n.source) c.source
  have hd3 : NotFuture d3 := ((hd.wrote hs _ _).wrote hs _ _).wrote hs _ _
  have now3 : d3.now = d.now + step + step + step := rfl
  have f1 : d3.files (tmp n.make) = some ⟨c.make, d.now⟩ := by
    show (wrote step _ _ _).files _ = _
    rw [wrote_other _ _ _ t13, wrote_other _ _ _ t12, wrote_same]
  have f2 : d3.files (tmp n.cmake) = some ⟨c.cmake, d.now + step⟩ := by
    show (wrote step _ _ _).files _ = _
    rw [wrote_other _ _ _ t23, wrote_same]; rfl
  have f3 : d3.files (tmp n.source) = some ⟨c.source, d.now + step + step⟩ := wrote_same ..
  have fo : ∀ g, g ≠ tmp n.make → g ≠ tmp n.cmake → g ≠ tmp n.source → d3.files g = d.files g := by
    intro g h1 h2 h3
    show (wrote step _ _ _).files _ = _
    rw [wrote_other _ _ _ h3, wrote_other _ _ _ h2, wrote_other _ _ _ h1]
  have fm := fo n.make m1 m2 m3
  have fc := fo n.cmake c1 c2 c3
  have fr := fo n.source r1 r2 r3
  have hex : ∀ k, exec step (snippet n c k) d = exec step (.ifFile n.make
      (.ifSame n.make (tmp n.make) (.remove (tmp n.make) (.remove (tmp n.cmake) (.remove (tmp n.source) k))) (replaceAll n k))
      (replaceAll n k)) d3 := fun k => rfl
  -- the replacement
  let e1 := ((d3.put n.make none).put n.cmake none).put n.source none
  let e := ((((((e1.put (tmp n.make) none).put n.make (some ⟨c.make, d.now⟩)).put (tmp n.cmake) none).put n.cmake (some ⟨c.cmake, d.now + step⟩)).put
    (tmp n.source) none).put n.source (some ⟨c.source, d.now + step + step⟩))
  have g1 : e1.files (tmp n.make) = some ⟨c.make, d.now⟩ := by
    show (Disk.put _ _ _).files _ = _
    rw [put_other _ _ r1.symm, put_other _ _ c1.symm, put_other _ _ m1.symm, f1]
  have g2 : ((e1.put (tmp n.make) none).put n.make (some ⟨c.make, d.now⟩)).files (tmp n.cmake) = some ⟨c.cmake, d.now + step⟩ := by
    rw [put_other _ _ m2.symm, put_other _ _ t12.symm]
    show (Disk.put _ _ _).files _ = _
    rw [put_other _ _ r2.symm, put_other _ _ c2.symm, put_other _ _ m2.symm, f2]
  have g3 : ((((e1.put (tmp n.make) none).put n.make (some ⟨c.make, d.now⟩)).put (tmp n.cmake) none).put n.cmake (some ⟨c.cmake, d.now + step⟩)).files
      (tmp n.source) = some ⟨c.source, d.now + step + step⟩ := by
    rw [put_other _ _ c3.symm, put_other _ _ t23.symm, put_other _ _ m3.symm, put_other _ _ t13.symm]
    show (Disk.put _ _ _).files _ = _
    rw [put_other _ _ r3.symm, put_other _ _ c3.symm, put_other _ _ m3.symm, f3]
  have hrep : ∀ k, exec step (replaceAll n k) d3 = exec step k e := by
    intro k
    unfold replaceAll
    rw [removeIf_exec, removeIf_exec, removeIf_exec]
    show exec step _ e1 = _
    simp only [exec, g1, g2, g3]
    rfl
  have em : e.files n.make = some ⟨c.make, d.now⟩ := by
    show (Disk.put _ _ _).files _ = _
    rw [put_other _ _ n13, put_other _ _ m3, put_other _ _ n12, put_other _ _ m2, put_same]
  have ec : e.files n.cmake = some ⟨c.cmake, d.now + step⟩ := by
    show (Disk.put _ _ _).files _ = _
    rw [put_other _ _ n23, put_other _ _ c3, put_same]
  have er : e.files n.source = some ⟨c.source, d.now + step + step⟩ := put_same ..
  have eo : ∀ g, (∀ f ∈ three n, g ≠ f ∧ g ≠ test f ∧ g ≠ tmp f) → e.files g = d.files g := by
    intro g hg
    have a1 := hg _ hm; have a2 := hg _ hc; have a3 := hg _ hr
    show (Disk.put _ _ _).files _ = _
    rw [put_other _ _ a3.1, put_other _ _ a3.2.2, put_other _ _ a2.1, put_other _ _ a2.2.2, put_other _ _ a1.1, put_other _ _ a1.2.2]
    show (Disk.put _ _ _).files _ = _
    rw [put_other _ _ a3.1, put_other _ _ a2.1, put_other _ _ a1.1, fo g a1.2.2 a2.2.2 a3.2.2]
  have enow : e.now = d.now + step + step + step := rfl
  have ef : NotFuture e := by
    refine ((((((hd3.putNone n.make).putNone n.cmake).putNone n.source).move g1).move g2).move g3)
  have hall : HoldsAll e (n, c) := ⟨⟨_, em⟩, ⟨_, ec⟩, ⟨_, er⟩⟩
  have hU : (¬ Holds d n.make c.make) → Updated3 n c d e := fun hno =>
    ⟨hall.1, fun _ => hall.2, eo, ef, by omega, fun h => absurd h hno, Or.inr hall⟩
  cases hf : d.files n.make with
  | none =>
    refine ⟨e, hU (by rintro ⟨t, ht⟩; rw [hf] at ht; cases ht), fun k => ?_⟩
    rw [hex]
    simp only [exec, fm, hf, Option.isSome_none, Bool.false_eq_true, if_false]
    exact hrep k
  | some x =>
    have hx := hd _ x hf
    have hsame : same x ⟨c.make, d.now⟩ = decide (x.text = c.make) := same_iff (by simp; omega)
    by_cases heq : x.text = c.make
    · let e' := ((d3.put (tmp n.make) none).put (tmp n.cmake) none).put (tmp n.source) none
      have ho : ∀ g, g ≠ tmp n.make → g ≠ tmp n.cmake → g ≠ tmp n.source → e'.files g = d.files g := by
        intro g h1 h2 h3
        show (Disk.put _ _ _).files _ = _
        rw [put_other _ _ h3, put_other _ _ h2, put_other _ _ h1, fo g h1 h2 h3]
      have h1 : Holds d n.make c.make := ⟨x.mtime, by rw [hf, ← heq]⟩
      have k1 := ho n.make m1 m2 m3
      have k2 := ho n.cmake c1 c2 c3
      have k3 := ho n.source r1 r2 r3
      have hsm : ∀ f ∈ three n, e'.files f = d.files f := by
        intro f hfm
        simp only [three, List.mem_cons, List.not_mem_nil, or_false] at hfm
        rcases hfm with rfl | rfl | rfl
        · exact k1
        · exact k2
        · exact k3
      refine ⟨e', ⟨?_, ?_, ?_, ((hd3.putNone _).putNone _).putNone _, ?_, fun _ => hsm, Or.inl hsm⟩, fun k => ?_⟩
      · unfold Holds; rw [k1]; exact h1
      · intro ht
        unfold Holds; rw [k2, k3]
        exact ht h1
      · intro g hg
        exact ho g (hg _ hm).2.2 (hg _ hc).2.2 (hg _ hr).2.2
      · show d.now ≤ d.now + step + step + step; omega
      · rw [hex]
        have i2 : (d3.put (tmp n.make) none).files (tmp n.cmake) = some ⟨c.cmake, d.now + step⟩ := by rw [put_other _ _ t12.symm, f2]
        have i3 : ((d3.put (tmp n.make) none).put (tmp n.cmake) none).files (tmp n.source) = some ⟨c.source, d.now + step + step⟩ := by
          rw [put_other _ _ t23.symm, put_other _ _ t13.symm, f3]
        simp only [exec, fm, hf, Option.isSome_some, if_true, f1, hsame, heq, decide_true, i2, i3]
        rfl
    · refine ⟨e, hU (by rintro ⟨t, ht⟩; rw [hf] at ht; cases ht; exact heq rfl), fun k => ?_⟩
      rw [hex]
      simp only [exec, fm, hf, Option.isSome_some, if_true, f1, hsame, heq, decide_false, Bool.false_eq_true, if_false]
      exact hrep k

/-! ## Several files -/

/-- What is known after the files `l` were written -/
structure Wrote (l : List (Str × Str)) (d e : Disk) : Prop where
  holds : ∀ p ∈ l, Holds e p.1 p.2
  keeps : Keeps (l.map (·.1)) d e
  future : NotFuture e
  later : d.now ≤ e.now

/-- What is known about the flag for updates -/
structure Flags (l : List (Str × Str)) (d : Disk) (b b' : Bool) (e : Disk) : Prop where
  up : b = true → b' = true
  old : b' = false → ∀ p ∈ l, e.files p.1 = d.files p.1
  equal : b = false → (∀ p ∈ l, Holds d p.1 p.2) → b' = false

/-- The names are apart -/
def Sep (l : List Str) : Prop := l.Nodup ∧ ∀ f ∈ l, ∀ g ∈ l, f ≠ test g ∧ f ≠ tmp g

theorem Sep.left {l l' : List Str} (h : Sep (l ++ l')) : Sep l :=
  ⟨(List.nodup_append.1 h.1).1, fun f hf g hg => h.2 f (List.mem_append_left _ hf) g (List.mem_append_left _ hg)⟩

theorem Sep.right {l l' : List Str} (h : Sep (l ++ l')) : Sep l' :=
  ⟨(List.nodup_append.1 h.1).2.1, fun f hf g hg => h.2 f (List.mem_append_right _ hf) g (List.mem_append_right _ hg)⟩

theorem Sep.away {l l' : List Str} (h : Sep (l ++ l')) : Away l l' := fun g hg f hf =>
  ⟨(List.nodup_append.1 h.1).2.2 g hg f hf, h.2 g (List.mem_append_left _ hg) f (List.mem_append_right _ hf)⟩

theorem Sep.away' {l l' : List Str} (h : Sep (l ++ l')) : Away l' l := fun g hg f hf =>
  ⟨fun he => (List.nodup_append.1 h.1).2.2 f hf g hg he.symm, h.2 g (List.mem_append_right _ hg) f (List.mem_append_left _ hf)⟩

theorem Away.mem {l l' : List Str} (h : Away l l') {f : Str} (hf : f ∈ l) : Away [f] l' := fun g hg x hx => by
  rw [List.mem_singleton.1 hg]; exact h f hf x hx

theorem Wrote.append {l l' : List (Str × Str)} {d e f : Disk} (h : Wrote l d e) (h' : Wrote l' e f)
    (hs : Sep (l.map (·.1) ++ l'.map (·.1))) : Wrote (l ++ l') d f := by
  refine ⟨?_, ?_, h'.future, Nat.le_trans h.later h'.later⟩
  · intro p hp
    rcases List.mem_append.1 hp with hp | hp
    · exact (h'.keeps.holds (hs.away.mem (List.mem_map_of_mem hp))).1 (h.holds p hp)
    · exact h'.holds p hp
  · rw [List.map_append]; exact h.keeps.trans h'.keeps

theorem Flags.append {l l' : List (Str × Str)} {d e f : Disk} {b b' b'' : Bool} (h : Flags l d b b' e) (h' : Flags l' e b' b'' f)
    (hk : Keeps (l.map (·.1)) d e) (hk' : Keeps (l'.map (·.1)) e f) (hs : Sep (l.map (·.1) ++ l'.map (·.1))) : Flags (l ++ l') d b b'' f := by
  refine ⟨fun hb => h'.up (h.up hb), ?_, ?_⟩
  · intro hb p hp
    have hb' : b' = false := by
      cases hq : b' with
      | false => rfl
      | true => rw [h'.up hq] at hb; cases hb
    rcases List.mem_append.1 hp with hp | hp
    · rw [hk' p.1 (hs.away p.1 (List.mem_map_of_mem hp)), h.old hb' p hp]
    · rw [h'.old hb p hp, hk p.1 (hs.away' p.1 (List.mem_map_of_mem hp))]
  · intro hb hall
    refine h'.equal (h.equal hb fun p hp => hall p (List.mem_append_left _ hp)) ?_
    intro p hp
    exact (hk.holds (hs.away'.mem (List.mem_map_of_mem hp))).1 (hall p (List.mem_append_right _ hp))

theorem Updated.wrote {force : Bool} {f text : Str} {d e : Disk} {b : Bool} (h : Updated force f text d b e) : Wrote [(f, text)] d e :=
  ⟨fun p hp => by rw [List.mem_singleton.1 hp]; exact h.holds, h.keeps, h.future, h.later⟩

theorem groupCaps_spec {step : Nat} (hs : 0 < step) : ∀ (gs : List (Str × Str)) (b : Bool) {d : Disk}, NotFuture d → Sep (gs.map (·.1)) →
    ∃ b' e, Wrote gs d e ∧ Flags gs d b b' e ∧ ∀ k, exec step (groupCaps gs b k) d = exec step (k b') e
  | [], b, d, hd, _ => ⟨b, d, ⟨(fun _ hp => nomatch hp), Keeps.refl _ _, hd, Nat.le_refl _⟩, ⟨id, (fun _ _ hp => nomatch hp), fun h _ => h⟩, fun _ => rfl⟩
  | g :: gs, b, d, hd, hsep => by
    have hsep' : Sep ([g].map (·.1) ++ gs.map (·.1)) := hsep
    obtain ⟨u, e, hu, hk⟩ := update_spec hs false g.1 g.2 hd
    obtain ⟨b', e', hw, hf, hk'⟩ := groupCaps_spec hs gs (b || u) hu.future hsep'.right
    have hflag : Flags [g] d b (b || u) e := by
      refine ⟨fun h => by simp [h], ?_, ?_⟩
      · intro h p hp
        rw [List.mem_singleton.1 hp]
        exact hu.old (by simp at h; exact h.2)
      · intro h hall
        rw [h, hu.equal rfl (hall g (by simp))]; rfl
    exact ⟨b', e', hu.wrote.append hw hsep', hflag.append hf hu.keeps hw.keeps hsep', fun k => by rw [groupCaps, hk, hk']⟩

/-- All caps -/
def caps (ss : List SuiteOut) : List (Str × Str) := (ss.map fun s => s.groups ++ [s.cap]).flatten

theorem suiteCaps_spec {step : Nat} (hs : 0 < step) : ∀ (ss : List SuiteOut) (b : Bool) {d : Disk}, NotFuture d → Sep ((caps ss).map (·.1)) →
    ∃ b' e, Wrote (caps ss) d e ∧ Flags (caps ss) d b b' e ∧ ∀ k, exec step (suiteCaps ss b k) d = exec step (k b') e
  | [], b, d, hd, _ => ⟨b, d, ⟨(fun _ hp => nomatch hp), Keeps.refl _ _, hd, Nat.le_refl _⟩, ⟨id, (fun _ _ hp => nomatch hp), fun h _ => h⟩, fun _ => rfl⟩
  | s :: ss, b, d, hd, hsep => by
    have hcaps : caps (s :: ss) = (s.groups ++ [s.cap]) ++ caps ss := rfl
    rw [hcaps, List.map_append] at hsep
    have hsg : Sep (s.groups.map (·.1) ++ [s.cap].map (·.1)) := by rw [← List.map_append]; exact hsep.left
    obtain ⟨u, e1, hw1, hf1, hk1⟩ := groupCaps_spec hs s.groups false hd hsg.left
    obtain ⟨v, e2, hu2, hk2⟩ := update_spec hs u s.cap.1 s.cap.2 hw1.future
    obtain ⟨b', e3, hw3, hf3, hk3⟩ := suiteCaps_spec hs ss (b || v) hu2.future hsep.right
    have hw12 := hw1.append hu2.wrote hsg
    have hflag : Flags (s.groups ++ [s.cap]) d b (b || v) e2 := by
      refine ⟨fun h => by simp [h], ?_, ?_⟩
      · intro h p hp
        have hv : v = false := by simp at h; exact h.2
        have hu : u = false := by
          cases hq : u with
          | false => rfl
          | true => rw [hu2.forced hq] at hv; cases hv
        rcases List.mem_append.1 hp with hp | hp
        · rw [hu2.keeps p.1 (hsg.away p.1 (List.mem_map_of_mem hp)), hf1.old hu p hp]
        · rw [List.mem_singleton.1 hp, hu2.old hv, hw1.keeps s.cap.1 (hsg.away' s.cap.1 (by simp))]
      · intro h hall
        have hu : u = false := hf1.equal rfl fun p hp => hall p (List.mem_append_left _ hp)
        have hv : v = false := hu2.equal hu ((hw1.keeps.holds (hsg.away'.mem (by simp))).1 (hall s.cap (by simp)))
        rw [h, hv]; rfl
    exact ⟨b', e3, hw12.append hw3 hsep, hflag.append hf3 hw12.keeps hw3.keeps hsep, fun k => by rw [suiteCaps, hk1, hk2, hk3]⟩

/-! ## The run -/

/-- All that is known about a run -/
structure RunSpec (o : Out) (d e : Disk) : Prop where
  plain : ∀ p ∈ plain o, Holds e p.1 p.2
  make : ∀ t ∈ triples o, Holds e t.1.make t.2.make
  both : ∀ t ∈ triples o, Together d t → HoldsAll e t
  keeps : Keeps (names o) d e
  future : NotFuture e
  later : d.now ≤ e.now
  /-- All files but the two tables stay when they are what they should be -/
  equal : (∀ p ∈ PF.plain o, p ≠ o.html → p ≠ o.latex → Holds d p.1 p.2) → (∀ t ∈ triples o, HoldsAll d t) →
    ∀ f ∈ (names o).drop 2, e.files f = d.files f
  /-- When a cap changes, the API and the include files are written again -/
  changed : (∃ f ∈ capNames o, e.files f ≠ d.files f) →
    ∀ f ∈ [o.api.1, o.source.1, o.cmake.1], ∃ x, e.files f = some x ∧ d.now ≤ x.mtime
  fate : ∀ t ∈ triples o, (∀ f ∈ three t.1, e.files f = d.files f) ∨ HoldsAll e t
  /-- The three files stay when the makefile is what it should be -/
  kept : ∀ t ∈ triples o, Holds d t.1.make t.2.make → ∀ f ∈ three t.1, e.files f = d.files f

theorem wrote_spec {step : Nat} (hs : 0 < step) {d : Disk} (hd : NotFuture d) (f text : Str) : Wrote [(f, text)] d (wrote step d f text) :=
  ⟨fun p hp => by rw [List.mem_singleton.1 hp]; exact ⟨_, wrote_same ..⟩,
   fun g hg => wrote_other step d text (hg f (by simp)).1, hd.wrote hs f text, by show d.now ≤ d.now + step; omega⟩

theorem together_iff {l : List Str} {d e : Disk} (h : Keeps l d e) {t : Triple × Triple} (ha : Away (three t.1) l) :
    (Together d t ↔ Together e t) ∧ (HoldsAll d t ↔ HoldsAll e t) := by
  have a1 := h.holds (text := t.2.make) (ha.mem (f := t.1.make) (by simp [three]))
  have a2 := h.holds (text := t.2.cmake) (ha.mem (f := t.1.cmake) (by simp [three]))
  have a3 := h.holds (text := t.2.source) (ha.mem (f := t.1.source) (by simp [three]))
  unfold Together HoldsAll
  rw [a1, a2, a3]
  exact ⟨Iff.rfl, Iff.rfl⟩

theorem run_spec {step : Nat} (hs : 0 < step) {o : Out} (ho : Apart o) {d : Disk} (hd : NotFuture d) :
    ∃ e, exec step (run o) d = some e ∧ RunSpec o d e := by
  have S0 : Sep (names o) := ho
  have S1 : Sep ([o.html.1] ++ ([o.latex.1] ++ (three o.typedefs.1 ++ (three o.schemes.1 ++ (capNames o ++ ([o.api.1] ++ ([o.source.1] ++ ([o.cmake.1] ++
    three o.caps.1)))))))) := S0
  have S2 := S1.right; have S3 := S2.right; have S4 := S3.right; have S5 := S4.right; have S6 := S5.right
  have S7 := S6.right; have S8 := S7.right; have S9 := S8.right
  have W1 := wrote_spec hs hd o.html.1 o.html.2
  have W2 := wrote_spec hs W1.future o.latex.1 o.latex.2
  obtain ⟨e3, U3, k3⟩ := snippet_spec hs ⟨S3.left.1, fun f hf g hg => (S3.left.2 f hf g hg).2⟩ o.typedefs.2 W2.future
  obtain ⟨e4, U4, k4⟩ := snippet_spec hs ⟨S4.left.1, fun f hf g hg => (S4.left.2 f hf g hg).2⟩ o.schemes.2 U3.future
  obtain ⟨b5, e5, W5, F5, k5⟩ := suiteCaps_spec hs o.suites false U4.future S5.left
  obtain ⟨b6, e6, U6, k6⟩ := update_spec hs b5 o.api.1 o.api.2 W5.future
  obtain ⟨b7, e7, U7, k7⟩ := update_spec hs b6 o.source.1 o.source.2 U6.future
  obtain ⟨b8, e8, U8, k8⟩ := update_spec hs b6 o.cmake.1 o.cmake.2 U7.future
  obtain ⟨e9, U9, k9⟩ := snippet_spec hs ⟨S9.1, fun f hf g hg => (S9.2 f hf g hg).2⟩ o.caps.2 U8.future
  generalize hd1 : wrote step d o.html.1 o.html.2 = d1 at W1 W2 U3 k3
  generalize hd2 : wrote step d1 o.latex.1 o.latex.2 = d2 at W2 U3 k3
  refine ⟨e9, ?_, ?_⟩
  · show exec step (snippet o.typedefs.1 o.typedefs.2 _) (wrote step (wrote step d o.html.1 o.html.2) o.latex.1 o.latex.2) = _
    rw [hd1, hd2, k3, k4, k5, k6, k7, k8, k9]
    rfl
  · -- what is kept to the end
    have K9 := U9.keeps
    have K8 := U8.keeps.trans K9
    have K7 := U7.keeps.trans K8
    have K6 := U6.keeps.trans K7
    have K5 := W5.keeps.trans K6
    have K4 := U4.keeps.trans K5
    have K3 := U3.keeps.trans K4
    have K2 := W2.keeps.trans K3
    have K1 := W1.keeps.trans K2
    -- what is kept from the beginning
    have B2 : Keeps [o.html.1] d d1 := W1.keeps
    have B3 : Keeps ([o.html.1] ++ [o.latex.1]) d d2 := B2.trans W2.keeps
    have B4 := B3.trans U3.keeps
    have B5 := B4.trans U4.keeps
    have B6 := B5.trans W5.keeps
    have B7 := B6.trans U6.keeps
    have B8 := B7.trans U7.keeps
    have B9 := B8.trans U8.keeps
    -- the names of the beginning
    have T3 : Away (three o.typedefs.1) ([o.html.1] ++ [o.latex.1]) := by
      have : Sep (([o.html.1] ++ [o.latex.1]) ++ (three o.typedefs.1 ++ (three o.schemes.1 ++ (capNames o ++ ([o.api.1] ++ ([o.source.1] ++ ([o.cmake.1] ++
        three o.caps.1))))))) := S1
      intro g hg; exact this.away' g (List.mem_append_left _ hg)
    have pre : ∀ (l r : List Str), Sep (l ++ r) → Away r l := fun l r h => h.away'
    have A4 := pre (([o.html.1] ++ [o.latex.1]) ++ three o.typedefs.1) _ (by simpa using S1)
    have A5 := pre ((([o.html.1] ++ [o.latex.1]) ++ three o.typedefs.1) ++ three o.schemes.1) _ (by simpa using S1)
    have A6 := pre (((([o.html.1] ++ [o.latex.1]) ++ three o.typedefs.1) ++ three o.schemes.1) ++ capNames o)
      ([o.api.1] ++ ([o.source.1] ++ ([o.cmake.1] ++ three o.caps.1))) (by simpa using S1)
    have A9 := pre (((((((([o.html.1] ++ [o.latex.1]) ++ three o.typedefs.1) ++ three o.schemes.1) ++ capNames o) ++ [o.api.1]) ++ [o.source.1]) ++ [o.cmake.1]))
      (three o.caps.1) (by simpa using S1)
    -- the triples at the beginning and at the end
    have T4 : Away (three o.schemes.1) (([o.html.1] ++ [o.latex.1]) ++ three o.typedefs.1) := fun g hg => A4 g (List.mem_append_left _ hg)
    have C5 : Away (capNames o) ((([o.html.1] ++ [o.latex.1]) ++ three o.typedefs.1) ++ three o.schemes.1) := fun g hg => A5 g (List.mem_append_left _ hg)
    have hall3 : Together d o.typedefs → HoldsAll e9 o.typedefs := fun h =>
      (together_iff K4 S3.away).2.1 ⟨U3.make, U3.both ((together_iff B3 T3).1.1 h)⟩
    have hall4 : Together d o.schemes → HoldsAll e9 o.schemes := fun h =>
      (together_iff K5 S4.away).2.1 ⟨U4.make, U4.both ((together_iff B4 T4).1.1 h)⟩
    have hall9 : Together d o.caps → HoldsAll e9 o.caps := fun h =>
      ⟨U9.make, U9.both ((together_iff B9 A9).1.1 h)⟩
    have hcaps : capNames o = (caps o.suites).map (·.1) := rfl
    constructor
    · intro p hp
      rcases List.mem_append.1 hp with hp | hp
      · rcases List.mem_append.1 hp with hp | hp
        · simp only [List.mem_cons, List.not_mem_nil, or_false] at hp
          rcases hp with rfl | rfl
          · exact (K2.holds S1.away).1 (W1.holds _ (by simp))
          · exact (K3.holds S2.away).1 (W2.holds _ (by simp))
        · exact (K6.holds (S5.away.mem (List.mem_map_of_mem hp))).1 (W5.holds p hp)
      · simp only [List.mem_cons, List.not_mem_nil, or_false] at hp
        rcases hp with rfl | rfl | rfl
        · exact (K7.holds S6.away).1 U6.holds
        · exact (K8.holds S7.away).1 U7.holds
        · exact (K9.holds S8.away).1 U8.holds
    · intro t ht
      simp only [triples, List.mem_cons, List.not_mem_nil, or_false] at ht
      rcases ht with rfl | rfl | rfl
      · exact (K4.holds (S3.away.mem (by simp [three]))).1 U3.make
      · exact (K5.holds (S4.away.mem (by simp [three]))).1 U4.make
      · exact U9.make
    · intro t ht
      simp only [triples, List.mem_cons, List.not_mem_nil, or_false] at ht
      rcases ht with rfl | rfl | rfl
      · exact hall3
      · exact hall4
      · exact hall9
    · exact K1
    · exact U9.future
    · exact Nat.le_trans W1.later (Nat.le_trans W2.later (Nat.le_trans U3.later (Nat.le_trans U4.later (Nat.le_trans W5.later
        (Nat.le_trans U6.later (Nat.le_trans U7.later (Nat.le_trans U8.later U9.later)))))))
    · intro hp ht f hf
      have q3 := U3.equal ((together_iff B3 T3).2.1 (ht _ (by simp [triples]))).1
      have q4 := U4.equal ((together_iff B4 T4).2.1 (ht _ (by simp [triples]))).1
      have q9 := U9.equal ((together_iff B9 A9).2.1 (ht _ (by simp [triples]))).1
      -- the names of the tables differ from all others
      have dif : ∀ p : Str × Str, p.1 ∈ (names o).drop 2 → p ≠ o.html ∧ p ≠ o.latex := by
        intro p hpm
        have hnd := S0.1
        constructor
        · rintro rfl
          exact (List.nodup_cons.1 hnd).1 (List.mem_cons_of_mem _ hpm)
        · rintro rfl
          exact (List.nodup_cons.1 (List.nodup_cons.1 hnd).2).1 hpm
      have hpl : ∀ p ∈ PF.plain o, p.1 ∈ (names o).drop 2 → Holds d p.1 p.2 := fun p hpm hm => hp p hpm (dif p hm).1 (dif p hm).2
      have hdrop : (names o).drop 2 =
        three o.typedefs.1 ++ (three o.schemes.1 ++ (capNames o ++ ([o.api.1, o.source.1, o.cmake.1] ++ three o.caps.1))) := rfl
      have mc : ∀ x, x ∈ capNames o → x ∈ (names o).drop 2 := fun x hx => by
        rw [hdrop]
        exact List.mem_append_right _ (List.mem_append_right _ (List.mem_append_left _ hx))
      have mr : ∀ x, x ∈ [o.api.1, o.source.1, o.cmake.1] → x ∈ (names o).drop 2 := fun x hx => by
        rw [hdrop]
        exact List.mem_append_right _ (List.mem_append_right _ (List.mem_append_right _ (List.mem_append_left _ hx)))
      have hb5 : b5 = false := F5.equal rfl fun p hpm =>
        (B5.holds (C5.mem (List.mem_map_of_mem hpm))).1 (hpl p (List.mem_append_left _ (List.mem_append_right _ hpm)) (mc _ (List.mem_map_of_mem hpm)))
      have hb6 : b6 = false := U6.equal hb5 ((B6.holds (A6.mem (by simp))).1 (hpl o.api (by simp [PF.plain]) (mr _ (by simp))))
      have hb7 : b7 = false := by
        refine U7.equal hb6 (((B6.trans U6.keeps).holds ?_).1 (hpl o.source (by simp [PF.plain]) (mr _ (by simp))))
        have := pre ((((([o.html.1] ++ [o.latex.1]) ++ three o.typedefs.1) ++ three o.schemes.1) ++ capNames o) ++ [o.api.1])
          ([o.source.1] ++ ([o.cmake.1] ++ three o.caps.1)) (by simpa using S1)
        exact this.mem (by simp)
      have hb8 : b8 = false := by
        refine U8.equal hb6 ((B8.holds ?_).1 (hpl o.cmake (by simp [PF.plain]) (mr _ (by simp))))
        have := pre (((((([o.html.1] ++ [o.latex.1]) ++ three o.typedefs.1) ++ three o.schemes.1) ++ capNames o) ++ [o.api.1]) ++ [o.source.1])
          ([o.cmake.1] ++ three o.caps.1) (by simpa using S1)
        exact this.mem (by simp)
      have hf' : f ∈ three o.typedefs.1 ++ (three o.schemes.1 ++ (capNames o ++ ([o.api.1] ++ ([o.source.1] ++ ([o.cmake.1] ++ three o.caps.1))))) := hf
      rcases List.mem_append.1 hf' with h | hf'
      · rw [K4 f (S3.away f h), q3 f h, B3 f (T3 f h)]
      rcases List.mem_append.1 hf' with h | hf'
      · rw [K5 f (S4.away f h), q4 f h, B4 f (T4 f h)]
      rcases List.mem_append.1 hf' with h | hf'
      · obtain ⟨p, hpm, rfl⟩ := List.mem_map.1 h
        rw [K6 _ (S5.away _ h), F5.old hb5 p hpm, B5 _ (C5 _ h)]
      rcases List.mem_append.1 hf' with h | hf'
      · rw [List.mem_singleton.1 h, K7 _ (S6.away _ (by simp)), U6.old hb6, B6 _ (A6 _ (by simp))]
      rcases List.mem_append.1 hf' with h | hf'
      · have := pre ((((([o.html.1] ++ [o.latex.1]) ++ three o.typedefs.1) ++ three o.schemes.1) ++ capNames o) ++ [o.api.1])
          ([o.source.1] ++ ([o.cmake.1] ++ three o.caps.1)) (by simpa using S1)
        rw [List.mem_singleton.1 h, K8 _ (S7.away _ (by simp)), U7.old hb7, B7 _ (this _ (by simp))]
      rcases List.mem_append.1 hf' with h | h
      · have := pre (((((([o.html.1] ++ [o.latex.1]) ++ three o.typedefs.1) ++ three o.schemes.1) ++ capNames o) ++ [o.api.1]) ++ [o.source.1])
          ([o.cmake.1] ++ three o.caps.1) (by simpa using S1)
        rw [List.mem_singleton.1 h, K9 _ (S8.away _ (by simp)), U8.old hb8, B8 _ (this _ (by simp))]
      · rw [q9 f h, B9 f (A9 f h)]
    · rintro ⟨f, hf, hne⟩
      have hb5 : b5 = true := by
        cases hb : b5 with
        | true => rfl
        | false =>
          obtain ⟨p, hpm, rfl⟩ := List.mem_map.1 hf
          refine absurd ?_ hne
          rw [K6 _ (S5.away _ hf), F5.old hb p hpm, B5 _ (C5 _ hf)]
      have hb6 := U6.forced hb5
      have l5 : d.now ≤ e5.now := Nat.le_trans W1.later (Nat.le_trans W2.later (Nat.le_trans U3.later (Nat.le_trans U4.later W5.later)))
      intro g hg
      simp only [List.mem_cons, List.not_mem_nil, or_false] at hg
      rcases hg with rfl | rfl | rfl
      · obtain ⟨x, hx, hl⟩ := U6.new hb6
        exact ⟨x, by rw [K7 _ (S6.away _ (by simp)), hx], Nat.le_trans l5 hl⟩
      · obtain ⟨x, hx, hl⟩ := U7.new (U7.forced hb6)
        exact ⟨x, by rw [K8 _ (S7.away _ (by simp)), hx], Nat.le_trans (Nat.le_trans l5 U6.later) hl⟩
      · obtain ⟨x, hx, hl⟩ := U8.new (U8.forced hb6)
        exact ⟨x, by rw [K9 _ (S8.away _ (by simp)), hx], Nat.le_trans (Nat.le_trans (Nat.le_trans l5 U6.later) U7.later) hl⟩
    · intro t ht
      simp only [triples, List.mem_cons, List.not_mem_nil, or_false] at ht
      rcases ht with rfl | rfl | rfl
      · rcases U3.fate with h | h
        · left; intro f hf; rw [K4 f (S3.away f hf), h f hf, B3 f (T3 f hf)]
        · right; exact (together_iff K4 S3.away).2.1 h
      · rcases U4.fate with h | h
        · left; intro f hf; rw [K5 f (S4.away f hf), h f hf, B4 f (T4 f hf)]
        · right; exact (together_iff K5 S4.away).2.1 h
      · rcases U9.fate with h | h
        · left; intro f hf; rw [h f hf, B9 f (A9 f hf)]
        · right; exact h
    · intro t ht hm f hf
      simp only [triples, List.mem_cons, List.not_mem_nil, or_false] at ht
      rcases ht with rfl | rfl | rfl
      · rw [K4 f (S3.away f hf), U3.equal ((B3.holds (T3.mem (by simp [three]))).1 hm) f hf, B3 f (T3 f hf)]
      · rw [K5 f (S4.away f hf), U4.equal ((B4.holds (T4.mem (by simp [three]))).1 hm) f hf, B4 f (T4 f hf)]
      · rw [U9.equal ((B9.holds (A9.mem (by simp [three]))).1 hm) f hf, B9 f (A9 f hf)]

/-! ## The theorems -/

/-- **C73**: from any disk, a run ends without exception, and then all tables, caps, the API and its include files, and the makefiles have
exactly the texts of this run; all files that are no outputs are as before.  The cmakefiles and the sourcefiles are right, too, unless the
makefile was already what it should be and they were not; then they stay wrong. -/
theorem C73_run_partial {step : Nat} (hs : 0 < step) {o : Out} (ho : Apart o) {d : Disk} (hd : NotFuture d) :
    ∃ e, exec step (run o) d = some e ∧ (∀ p ∈ plain o, Holds e p.1 p.2) ∧ (∀ t ∈ triples o, Holds e t.1.make t.2.make) ∧
      (∀ t ∈ triples o, HoldsAll e t ↔ Together d t) ∧
      (∀ g, (∀ f ∈ names o, g ≠ f ∧ g ≠ test f ∧ g ≠ tmp f) → e.files g = d.files g) := by
  obtain ⟨e, he, h⟩ := run_spec hs ho hd
  refine ⟨e, he, h.plain, h.make, fun t ht => ⟨fun hall hm => ?_, h.both t ht⟩, h.keeps⟩
  have hk := h.kept t ht hm
  unfold Holds
  rw [← hk _ (by simp [three]), ← hk t.1.source (by simp [three])]
  exact hall.2

/-- **C73**: this holds after any sequence of earlier runs for any outputs, each of which may have been stopped anywhere, also in the
middle of writing a file. -/
theorem C73_history {step : Nat} (hs : 0 < step) {d : Disk} (h : Reached step d) : NotFuture d := by
  induction h with
  | start d h => exact h
  | complete _ he ih => exact stops_notFuture hs _ ih (exec_stops _ he)
  | stopped _ he ih => exact stops_notFuture hs _ ih he

theorem C73_recovers {step : Nat} (hs : 0 < step) {d : Disk} (h : Reached step d) {o : Out} (ho : Apart o) :
    ∃ e, exec step (run o) d = some e ∧ ∀ p ∈ plain o, Holds e p.1 p.2 := by
  obtain ⟨e, he, h1, _⟩ := C73_run_partial hs ho (C73_history hs h)
  exact ⟨e, he, h1⟩

/-- **C73**: after complete runs for outputs of which the texts of the makefiles determine the texts of the other two files, a run leaves
all files right. -/
theorem completed_inv {step : Nat} (hs : 0 < step) {P : Out → Prop} (hP : ∀ o, P o → Apart o) (hdet : ∀ o o', P o → P o' → Determined o o')
    {d : Disk} (h : Completed step P d) : NotFuture d ∧ ∀ o, P o → ∀ t ∈ triples o, Together d t := by
  induction h with
  | start h1 h2 =>
    refine ⟨h1, fun o ho t ht hh => ?_⟩
    obtain ⟨x, hx⟩ := hh
    have hm : t.1.make ∈ names o := by
      simp only [triples, List.mem_cons, List.not_mem_nil, or_false] at ht
      rcases ht with rfl | rfl | rfl <;> simp [names, three]
    rw [h2 o ho _ hm] at hx; cases hx
  | @complete d e o hc ho he ih =>
    obtain ⟨e', he', hr⟩ := run_spec hs (hP o ho) ih.1
    rw [he] at he'; cases he'
    refine ⟨hr.future, fun o' ho' t' ht' => ?_⟩
    -- the triple of the same names in the last run
    have key : ∀ t ∈ triples o, SameMake t t' → Together e t' := by
      intro t ht hsm hh
      have hall := hr.both t ht (ih.2 o ho t ht)
      obtain ⟨⟨x, hx⟩, hb, hc⟩ := hall
      obtain ⟨y, hy⟩ := hh
      rw [hsm.1, hy] at hx
      have : t.2.make = t'.2.make := by
        have hx' := Option.some.inj hx
        exact (congrArg File.text hx').symm
      have h2 := hsm.2 this
      rw [← hsm.1, ← h2]
      exact ⟨hb, hc⟩
    obtain ⟨d1, d2, d3⟩ := hdet o o' ho ho'
    simp only [triples, List.mem_cons, List.not_mem_nil, or_false] at ht'
    rcases ht' with rfl | rfl | rfl
    · exact key _ (by simp [triples]) d1
    · exact key _ (by simp [triples]) d2
    · exact key _ (by simp [triples]) d3

theorem C73_completed_partial {step : Nat} (hs : 0 < step) {P : Out → Prop} (hP : ∀ o, P o → Apart o)
    (hdet : ∀ o o', P o → P o' → Determined o o') {d : Disk} (h : Completed step P d) {o : Out} (ho : P o) :
    ∃ e, exec step (run o) d = some e ∧ (∀ p ∈ plain o, Holds e p.1 p.2) ∧ ∀ t ∈ triples o, HoldsAll e t := by
  obtain ⟨h1, h2⟩ := completed_inv hs hP hdet h
  obtain ⟨e, he, hp, _, hb, _⟩ := C73_run_partial hs (hP o ho) h1
  exact ⟨e, he, hp, fun t ht => (hb t ht).2 (h2 o ho t ht)⟩

/-- **C73**: when all files are already what they should be, a run changes none of them but the two tables, not even their times; so a
second run changes nothing and nothing is compiled again. -/
theorem C73_again {step : Nat} (hs : 0 < step) {o : Out} (ho : Apart o) {d : Disk} (hd : NotFuture d)
    (hp : ∀ p ∈ plain o, Holds d p.1 p.2) (ht : ∀ t ∈ triples o, HoldsAll d t) :
    ∃ e, exec step (run o) d = some e ∧ ∀ f ∈ names o, f ≠ o.html.1 → f ≠ o.latex.1 → e.files f = d.files f := by
  obtain ⟨e, he, h⟩ := run_spec hs ho hd
  refine ⟨e, he, fun f hf h1 h2 => h.equal (fun p hpm _ _ => hp p hpm) ht f ?_⟩
  rcases List.mem_cons.1 hf with rfl | hf
  · exact absurd rfl h1
  rcases List.mem_cons.1 hf with rfl | hf
  · exact absurd rfl h2
  exact hf

/-- **C73**: when a complete run changes a cap, it writes the API and its include files again. -/
theorem C73_changed {step : Nat} (hs : 0 < step) {o : Out} (ho : Apart o) {d : Disk} (hd : NotFuture d) {e : Disk}
    (he : exec step (run o) d = some e) (hc : ∃ f ∈ capNames o, e.files f ≠ d.files f) :
    ∀ f ∈ [o.api.1, o.source.1, o.cmake.1], ∃ x, e.files f = some x ∧ d.now ≤ x.mtime := by
  obtain ⟨e', he', h⟩ := run_spec hs ho hd
  rw [he] at he'; cases he'
  exact h.changed hc

end Ccpp.PF
