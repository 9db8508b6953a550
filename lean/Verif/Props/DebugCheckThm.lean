import Verif.Props.DebugCheck
import Mathlib.Data.List.Forall2
/-! # C83: the theorems -/
namespace Ccpp.DC
open PB (Str)

variable {ev : Str → (Str → Option Int) → Bool} {c : Ctx} {k : Check} {s : State}

theorem target_arg {std l : Str} (h : Dict.find c.call std = some l) : target c std = .ok (l, true) := by simp [target, h]

theorem target_own {std l : Str} (h : Own c std l) : target c std = .ok (l, false) := by
  obtain ⟨h1, h2 | ⟨h2, h3⟩⟩ := h
  · simp [target, h1, h2]
  · simp [target, h1, h2, h3]

/-- What is written for an array. -/
def arrayCode (k : Check) (l intent t : Str) (ps : List Part) : List Guarded :=
  if intent = "out".toList then [⟨guardOf t, [.check l (ps.map Part.sub) (ps.map Part.len)]⟩]
  else [⟨guardOf t, [.check l (ps.map Part.sub) (ps.map Part.len)]⟩,
        ⟨guardOf t, [.elem k.ivar l (ps.map Part.lo), .elem k.ivar l (ps.map Part.hi)]⟩]

theorem emit_array {l intent t : Str} {arg : Bool} {ns : List Str} {ps : List Part} (ht : target c k.std = .ok (l, arg))
    (hi : c.intents.lookup k.std = some intent) (hno : ¬ (intent = "out".toList ∧ k.allocatable = true))
    (hc : CD.capgen c.scopes k.active = some (t, ns)) (hd : k.dims ≠ []) (hp : dimParts c arg k.dims = .ok ps) :
    emit c k = .ok (arrayCode k l intent t ps) := by
  unfold emit arrayCode
  rw [ht]
  simp only [Except.bind, hi, if_neg hno, hc, if_neg hd, hp]
  split <;> rfl

theorem emit_scalar {l intent t : Str} {arg : Bool} {ns : List Str} (ht : target c k.std = .ok (l, arg))
    (hi : c.intents.lookup k.std = some intent) (hno : ¬ (intent = "out".toList ∧ k.allocatable = true))
    (hc : CD.capgen c.scopes k.active = some (t, ns)) (hd : k.dims = []) :
    emit c k = .ok (if intent = "out".toList then [] else [⟨guardOf t, [.copy k.ivar l]⟩]) := by
  unfold emit
  rw [ht]
  simp only [Except.bind, hi, if_neg hno, hc, if_pos hd]
  split <;> rfl

/-- The forms of what is written. -/
theorem emit_inv {gs : List Guarded} (h : emit c k = .ok gs) :
    gs = [] ∨ ∃ t ns, CD.capgen c.scopes k.active = some (t, ns) ∧ ∃ l,
      (∃ intent, c.intents.lookup k.std = some intent ∧ intent ≠ "out".toList ∧ gs = [⟨guardOf t, [.copy k.ivar l]⟩]) ∨
      ∃ intent ps, c.intents.lookup k.std = some intent ∧ gs = arrayCode k l intent t ps := by
  unfold emit at h
  cases ht : target c k.std with
  | error e => rw [ht] at h; cases h
  | ok lt =>
    rw [ht] at h
    simp only [Except.bind] at h
    split at h
    · cases h
    · rename_i intent hi
      split at h
      · cases h; exact Or.inl rfl
      · split at h
        · cases h
        · rename_i t ns hc
          split at h
          · split at h
            · cases h; exact Or.inl rfl
            · rename_i hne
              cases h
              exact Or.inr ⟨t, ns, hc, lt.1, Or.inl ⟨intent, hi, hne, rfl⟩⟩
          · cases hp : dimParts c lt.2 k.dims with
            | error e => rw [hp] at h; cases h
            | ok ps =>
              rw [hp] at h
              refine Or.inr ⟨t, ns, hc, lt.1, Or.inr ⟨intent, ps, hi, ?_⟩⟩
              unfold arrayCode
              simp only at h
              split at h
              · rename_i ho; cases h; rw [if_pos ho]
              · rename_i ho; cases h; rw [if_neg ho]

/-- C83. A variable whose condition does not hold is not touched: its debug code changes nothing, refers to nothing and returns no error, whatever
arrays exist. -/
theorem C83_inactive {gs : List Guarded} (h : emit c k = .ok gs) (hin : Inactive ev c s k.active) : execG ev s gs = .cont s := by
  obtain ⟨t, ns, hc, ht, he⟩ := hin
  rcases emit_inv h with rfl | ⟨t', ns', hc', l, hx⟩
  · rfl
  · rw [hc] at hc'
    cases hc'
    rcases hx with ⟨_, _, _, rfl⟩ | ⟨intent, ps, _, rfl⟩
    · simp only [execG, guardOf_skip ht he]
    · unfold arrayCode
      split
      · simp only [execG, guardOf_skip ht he]
      · simp only [execG, guardOf_skip ht he]

/-- C83. A variable that a scheme only writes is never read: if the intent is `out`, the debug code assigns nothing, and for an allocatable or a
scalar variable there is no debug code. -/
theorem C83_out {gs : List Guarded} (h : emit c k = .ok gs) (hi : c.intents.lookup k.std = some "out".toList) :
    (∀ s', execG ev s gs = .cont s' → s' = s) ∧ (k.allocatable = true ∨ k.dims = [] → gs = []) := by
  constructor
  · intro s' hs
    rcases emit_inv h with rfl | ⟨t, ns, hc, l, ⟨i, h1, h2, rfl⟩ | ⟨i, ps, h1, rfl⟩⟩
    · cases hs; rfl
    · rw [hi] at h1; cases h1; exact absurd rfl h2
    · rw [hi] at h1
      cases h1
      unfold arrayCode at hs
      rw [if_pos rfl] at hs
      have hchk : ∀ (x : Str) (subs : List Sub) (lens : List Len) s', execL s [.check x subs lens] = .cont s' → s' = s := by
        intro x subs lens s' hx
        simp only [execL, Basic.exec] at hx
        cases ha : s.arr x with
        | none => rw [ha] at hx; cases hx
        | some a =>
          rw [ha] at hx
          simp only at hx
          cases h1 : sectionSize s a subs <;> cases h2 : allSome (lens.map (Len.eval s)) <;> rw [h1, h2] at hx <;> simp only at hx
          all_goals first | cases hx | skip
          split at hx
          · rename_i heq; split at heq <;> cases heq; cases hx; rfl
          · rename_i o hne; split at hx
            · cases hx
            · cases hx; rfl
      simp only [execG] at hs
      cases hg : Guarded.exec ev s ⟨guardOf t, [.check l (ps.map Part.sub) (ps.map Part.len)]⟩ with
      | cont s2 =>
        rw [hg] at hs
        cases hs
        unfold Guarded.exec at hg
        split at hg
        · exact hchk _ _ _ _ hg
        · split at hg
          · exact hchk _ _ _ _ hg
          · cases hg; rfl
      | stop a b d => rw [hg] at hs; cases hs
      | undef => rw [hg] at hs; cases hs
  · intro hor
    unfold emit at h
    cases ht : target c k.std with
    | error e => rw [ht] at h; cases h
    | ok lt =>
      rw [ht] at h
      simp only [Except.bind, hi, true_and] at h
      rcases hor with ha | hd
      · rw [if_pos ha] at h; cases h; rfl
      · split at h
        · cases h; rfl
        · split at h
          · cases h
          · simp only [hd, if_true] at h; cases h; rfl

theorem check_exec {l : Str} {a : Arr} {subs : List Sub} {lens : List Len} {g : Int} {es : List Int} (ha : s.arr l = some a)
    (hg : sectionSize s a subs = some g) (he : allSome (lens.map (Len.eval s)) = some es) :
    Basic.exec s (.check l subs lens) = if g ≠ es.prod then .stop 1 es.prod (total a) else .cont s := by
  simp only [Basic.exec, ha, hg, he]
  rfl

theorem array_stop {l intent t : Str} {ps : List Part} {a : Arr} {g : Int} {es : List Int}
    (hact : t = ".true.".toList ∨ ev t s.mem = true) (ha : s.arr l = some a)
    (hg : sectionSize s a (ps.map Part.sub) = some g) (he : allSome ((ps.map Part.len).map (Len.eval s)) = some es) (hne : g ≠ es.prod) :
    execG ev s (arrayCode k l intent t ps) = .stop 1 es.prod (total a) := by
  unfold arrayCode
  split <;>
  · simp only [execG, guardOf_exec hact, execL, check_exec ha hg he, if_pos hne]

theorem assign_stop {d : Str} {o : Option Int} {x y z : Int} : assign s d o ≠ .stop x y z := by cases o <;> simp [assign]

theorem array_pass {l intent t : Str} {ps : List Part} {a : Arr} {g : Int} {es : List Int}
    (hact : t = ".true.".toList ∨ ev t s.mem = true) (ha : s.arr l = some a)
    (hg : sectionSize s a (ps.map Part.sub) = some g) (he : allSome ((ps.map Part.len).map (Len.eval s)) = some es) (hne : g = es.prod) :
    execG ev s (arrayCode k l intent t ps) =
      if intent = "out".toList then .cont s
      else execG ev s [⟨guardOf t, [.elem k.ivar l (ps.map Part.lo), .elem k.ivar l (ps.map Part.hi)]⟩] := by
  unfold arrayCode
  split
  · simp only [execG, guardOf_exec hact, execL, check_exec ha hg he, hne, ne_eq, not_true_eq_false, if_false]
  · simp only [execG, guardOf_exec hact, execL, check_exec ha hg he, hne, ne_eq, not_true_eq_false, if_false]

theorem elems_no_stop {g : Option Str} {x d : Str} {i j : List Ix} {p q r : Int} :
    execG ev s [⟨g, [.elem d x i, .elem d x j]⟩] ≠ .stop p q r := by
  have hb : ∀ (s : State) (d x : Str) (i : List Ix) (p q r : Int), Basic.exec s (.elem d x i) ≠ .stop p q r := by
    intro s d x i p q r
    simp only [Basic.exec]
    split
    · exact assign_stop
    · intro h; cases h
  have hl : execL s [.elem d x i, .elem d x j] ≠ .stop p q r := by
    intro h
    simp only [execL] at h
    cases h1 : Basic.exec s (.elem d x i) with
    | stop a b e => exact hb _ _ _ _ _ _ _ h1
    | undef => rw [h1] at h; cases h
    | cont s1 =>
      rw [h1] at h
      simp only at h
      cases h2 : Basic.exec s1 (.elem d x j) with
      | stop a b e => exact hb _ _ _ _ _ _ _ h2
      | undef => rw [h2] at h; cases h
      | cont s2 => rw [h2] at h; cases h
  intro h
  simp only [execG] at h
  cases hx : Guarded.exec ev s ⟨g, [.elem d x i, .elem d x j]⟩ with
  | cont s1 => rw [hx] at h; cases h
  | undef => rw [hx] at h; cases h
  | stop a b e =>
    rw [hx] at h
    cases h
    unfold Guarded.exec at hx
    cases g with
    | none => exact hl hx
    | some t =>
      simp only at hx
      split at hx
      · exact hl hx
      · cases hx

theorem lens_map (ps : List Part) : (ps.map Part.len).map (Len.eval s) = ps.map fun p => p.len.eval s := by simp

/-- C83, arguments of the group. The debug check of an active array that is an argument of the group returns error code 1 exactly if the number of
elements of the array differs from the number that the metadata ask for; and the message then gives both numbers. -/
theorem C83_check_argument {l intent : Str} {a : Arr} {ns : List Int} (hcall : Dict.find c.call k.std = some l)
    (hi : c.intents.lookup k.std = some intent) (hno : ¬ (intent = "out".toList ∧ k.allocatable = true))
    (hact : Active ev c s k.active) (hd : k.dims ≠ []) (hcol : ∀ d ∈ k.dims, ':' ∈ d)
    (hm : List.Forall₂ (Meta c s true) k.dims ns) (ha : s.arr l = some a) (hr : a.bounds.length = k.dims.length) :
    ∃ gs, emit c k = .ok gs ∧ (total a ≠ ns.prod → execG ev s gs = .stop 1 ns.prod (total a)) ∧
      (total a = ns.prod → ∀ code e g, execG ev s gs ≠ .stop code e g) := by
  obtain ⟨t, xs, hc, hact⟩ := hact
  obtain ⟨ps, hp, he, hl, hs⟩ := parts_meta hm
  have hsub : ∀ x ∈ ps.map Part.sub, x = .all := by
    intro x hx
    obtain ⟨p, hp, rfl⟩ := List.mem_map.mp hx
    exact hs rfl hcol p hp
  have hsec : sectionSize s a (ps.map Part.sub) = some (total a) := by
    refine section_all s a _ hsub (by simp [hl, hr]) ?_
    intro e
    have : ps.length = 0 := by simpa using congrArg List.length e
    rw [hl] at this
    exact hd (List.eq_nil_of_length_eq_zero this)
  refine ⟨_, emit_array (target_arg hcall) hi hno hc hd hp, ?_, ?_⟩
  · intro hne
    exact array_stop hact ha hsec (by rw [lens_map]; exact he) hne
  · intro heq code e g
    rw [array_pass hact ha hsec (by rw [lens_map]; exact he) heq]
    split
    · intro h; cases h
    · exact elems_no_stop

theorem sect_part {d : Str} {b : Int × Int} {m n : Int} (h : Sect c s d b m) (hm : Meta c s false d n) :
    ∃ p, dimPart c false d = .ok p ∧ p.len.eval s = some n ∧ p.sub.size s b = some m ∧ p.sub.isSlice = true := by
  cases h with
  | whole h1 h2 =>
    cases hm with
    | index h3 => exact absurd h1 h3
    | horizontalExtent _ h3 => rw [h2] at h3; cases h3
    | horizontalLoop _ h3 => rw [h2] at h3; cases h3
    | horizontalAll _ h3 => rw [h2] at h3; cases h3
    | @range lo hi l h h3 h4 h5 h6 h7 =>
      obtain ⟨ln, h8, h9⟩ := value_inv h6
      obtain ⟨un, h10, h11⟩ := value_inv h7
      refine ⟨⟨.ext un ln, .all, .nm ln, .nm un⟩, ?_, ext_val h11 h9, rfl, rfl⟩
      simp [dimPart, h5, splitColon_two lo hi h3 h4, known_ok h8, known_ok h10, Except.bind]
  | @loop i j h1 h2 h3 h4 h5 h6 h7 h8 =>
    obtain ⟨ln, h9, h10⟩ := value_inv h4
    obtain ⟨un, h11, h12⟩ := value_inv h5
    refine ⟨⟨.ext un ln, .rng ln un, .nm ln, .nm un⟩, ?_, ?_, ?_, rfl⟩
    · simp only [dimPart, h1, not_true_eq_false, if_false, h2, if_true, horizPart, horizNames, h3, Bool.false_and, Bool.false_eq_true]
      rw [known_ok h9, known_ok h11]; rfl
    · cases hm with
      | index h => exact absurd h1 h
      | horizontalExtent _ _ _ h => cases h
      | horizontalLoop _ _ _ _ ha hb =>
        rw [h4] at ha; rw [h5] at hb; cases ha; cases hb
        exact ext_val h12 h10
      | horizontalAll _ _ h => rw [h3] at h; cases h
      | range h13 h14 h15 => rw [h15] at h2; cases h2
    · simp only [Sub.size, h10, h12, Option.bind_some]
      rw [if_neg (by omega), if_pos ⟨h7, h8⟩]
  | @all j h1 h2 h3 h4 h5 h6 h7 =>
    obtain ⟨un, h11, h12⟩ := value_inv h4
    refine ⟨⟨.ext un "1".toList, .rng "1".toList un, .nm "1".toList, .nm un⟩, ?_, ?_, ?_, rfl⟩
    · simp only [dimPart, h1, not_true_eq_false, if_false, h2, if_true, horizPart, horizNames, h3, Bool.false_eq_true]
      rw [known_ok (look_one c), known_ok h11]; rfl
    · cases hm with
      | index h => exact absurd h1 h
      | horizontalExtent _ _ h => rw [h3] at h; cases h
      | horizontalLoop _ _ h => rw [h3] at h; cases h
      | horizontalAll _ _ _ ha =>
        rw [h4] at ha; cases ha
        exact ext_val1 h12
      | range h13 h14 h15 => rw [h15] at h2; cases h2
    · simp only [Sub.size, num_one, h12, Option.bind_some]
      rw [if_neg (by omega), if_pos ⟨h6, h7⟩]
      simp

theorem parts_sect : ∀ {ds : List Str} {ns : List Int}, List.Forall₂ (Meta c s false) ds ns → ∀ {bs : List (Int × Int)} {ms : List Int},
    bs.length = ds.length → List.Forall₂ (fun p m => Sect c s p.1 p.2 m) (ds.zip bs) ms →
    ∃ ps, dimParts c false ds = .ok ps ∧ allSome (ps.map (fun p => p.len.eval s)) = some ns ∧ ps.length = ds.length ∧
      allSome (((ps.map Part.sub).zip bs).map fun p => p.1.size s p.2) = some ms ∧ ∀ p ∈ ps, p.sub.isSlice = true := by
  intro ds ns h
  induction h with
  | nil =>
    intro bs ms _ h2
    simp only [List.zip_nil_left] at h2
    cases h2
    exact ⟨[], rfl, rfl, rfl, rfl, by simp⟩
  | @cons d n ds ns h1 h2 ih =>
    intro bs ms hl hf
    cases bs with
    | nil => simp at hl
    | cons b bs =>
      simp only [List.zip_cons_cons] at hf
      cases hf with
      | @cons _ m _ ms hs hf =>
        obtain ⟨ps, i1, i2, i3, i4, i5⟩ := ih (by simpa using hl) hf
        obtain ⟨p, j1, j2, j3, j4⟩ := sect_part hs h1
        refine ⟨p :: ps, ?_, ?_, by simp [i3], ?_, ?_⟩
        · simp [dimParts, j1, i1, Except.bind]
        · simp [allSome, j2, i2]
        · simp [allSome, j3, i4]
        · intro q hq
          rcases List.mem_cons.mp hq with rfl | hq
          · exact j4
          · exact i5 q hq

/-- C83, variables of the group or the suite. The debug check of an active array that is not an argument of the group returns error code 1 exactly
if the part of the array with the columns of this call, if it lies inside the array, has not the number of elements that the metadata ask for. -/
theorem C83_check_own {l intent : Str} {a : Arr} {ns ms : List Int} (hown : Own c k.std l)
    (hi : c.intents.lookup k.std = some intent) (hno : ¬ (intent = "out".toList ∧ k.allocatable = true))
    (hact : Active ev c s k.active) (hd : k.dims ≠ [])
    (hm : List.Forall₂ (Meta c s false) k.dims ns) (ha : s.arr l = some a) (hr : a.bounds.length = k.dims.length)
    (hs : List.Forall₂ (fun p m => Sect c s p.1 p.2 m) (k.dims.zip a.bounds) ms) :
    ∃ gs, emit c k = .ok gs ∧ (ms.prod ≠ ns.prod → ∃ got, execG ev s gs = .stop 1 ns.prod got) ∧
      (ms.prod = ns.prod → ∀ code e g, execG ev s gs ≠ .stop code e g) := by
  obtain ⟨t, xs, hc, hact⟩ := hact
  obtain ⟨ps, hp, he, hl, hz, hsl⟩ := parts_sect hm hr hs
  have hany : (ps.map Part.sub).any Sub.isSlice = true := by
    cases hps : ps with
    | nil =>
      rw [hps] at hl
      exact absurd (List.eq_nil_of_length_eq_zero hl.symm) hd
    | cons p q =>
      have := hsl p (by simp [hps])
      simp [this]
  have hsec : sectionSize s a (ps.map Part.sub) = some ms.prod := by
    unfold sectionSize
    rw [if_pos ⟨by simp [hl, hr], hany⟩, hz]
    rfl
  refine ⟨_, emit_array (target_own hown) hi hno hc hd hp, ?_, ?_⟩
  · intro hne
    exact ⟨_, array_stop hact ha hsec (by rw [lens_map]; exact he) hne⟩
  · intro heq code e g
    rw [array_pass hact ha hsec (by rw [lens_map]; exact he) heq]
    split
    · intro h; cases h
    · exact elems_no_stop

end Ccpp.DC
