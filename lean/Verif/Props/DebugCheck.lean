import Verif.Spec.DebugCheck
import Mathlib.Tactic.Ring
import Mathlib.Algebra.BigOperators.Group.List.Basic
/-! # C83: lemmas -/
namespace Ccpp.DC
open PB (Str)

theorem splitColon_none : ∀ (s : Str), ':' ∉ s → splitColon s = [s] := by
  intro s
  induction s with
  | nil => intro _; rfl
  | cons a s ih =>
    intro h
    have h1 : a ≠ ':' := fun e => h (by simp [e])
    have h2 : ':' ∉ s := fun e => h (by simp [e])
    simp [splitColon, h1, ih h2]

theorem splitColon_two (lo hi : Str) (h1 : ':' ∉ lo) (h2 : ':' ∉ hi) : splitColon (lo ++ ':' :: hi) = [lo, hi] := by
  induction lo with
  | nil => simp [splitColon, splitColon_none hi h2]
  | cons a s ih =>
    have ha : a ≠ ':' := fun e => h1 (by simp [e])
    have hs : ':' ∉ s := fun e => h1 (by simp [e])
    simp [splitColon, ha, ih hs]

theorem splitColon_inv : ∀ (s lo hi : Str), splitColon s = [lo, hi] → s = lo ++ ':' :: hi ∧ ':' ∉ lo ∧ ':' ∉ hi := by
  have one : ∀ (s p : Str), splitColon s = [p] → s = p ∧ ':' ∉ p := by
    intro s
    induction s with
    | nil => intro p h; simp [splitColon] at h; subst h; simp
    | cons a s ih =>
      intro p h
      have hne : ∀ s : Str, splitColon s ≠ [] := by
        intro s; cases s with
        | nil => simp [splitColon]
        | cons b s => simp only [splitColon]; split
                      · simp
                      · split <;> simp
      simp only [splitColon] at h
      split at h
      · rename_i ha
        simp only [List.cons.injEq] at h
        exact absurd h.2 (hne s)
      · rename_i ha
        split at h
        · rename_i hs; exact absurd hs (hne s)
        · rename_i q qs hs
          simp only [List.cons.injEq] at h
          obtain ⟨h3, h4⟩ := h
          subst h4
          obtain ⟨h5, h6⟩ := ih q hs
          subst h3 h5
          refine ⟨rfl, ?_⟩
          simp only [List.mem_cons, not_or]
          exact ⟨fun e => ha e.symm, h6⟩
  intro s
  induction s with
  | nil => intro lo hi h; simp [splitColon] at h
  | cons a s ih =>
    intro lo hi h
    simp only [splitColon] at h
    split at h
    · rename_i ha
      simp only [List.cons.injEq] at h
      obtain ⟨h3, h4⟩ := h
      obtain ⟨h5, h6⟩ := one s hi h4
      subst h3 h5 ha
      simpa using h6
    · rename_i ha
      split at h
      · simp at h
      · rename_i q qs hs
        simp only [List.cons.injEq] at h
        obtain ⟨h3, h4⟩ := h
        subst h4
        obtain ⟨h5, h6, h7⟩ := ih q hi hs
        subst h3 h5
        refine ⟨rfl, ?_, h7⟩
        simp only [List.mem_cons, not_or]
        exact ⟨fun e => ha e.symm, h6⟩

theorem known_ok {c : Ctx} {n l : Str} (h : look c.dicts n = some l) : known c n = .ok l := by simp [known, h]

theorem known_inv {c : Ctx} {n l : Str} (h : known c n = .ok l) : look c.dicts n = some l := by
  unfold known at h
  split at h
  · rename_i l' hl; cases h; exact hl
  · cases h

theorem value_inv {c : Ctx} {s : State} {n : Str} {v : Int} (h : value c s n = some v) :
    ∃ l, look c.dicts n = some l ∧ s.num l = some v := by
  change (look c.dicts n).bind s.num = some v at h
  cases hl : look c.dicts n with
  | none => rw [hl] at h; cases h
  | some l => rw [hl] at h; exact ⟨l, rfl, h⟩

theorem look_one (c : Ctx) : look c.dicts "ccpp_constant_one".toList = some "1".toList := by
  simp [look, Ctx.dicts, Dict.find]

theorem num_one (s : State) : s.num "1".toList = some 1 := by simp [State.num]

theorem ext_val {s : State} {u l : Str} {a b : Int} (h1 : s.num u = some a) (h2 : s.num l = some b) : s.ext u l = some (a - b + 1) := by
  simp [State.ext, h1, h2]

theorem ext_val1 {s : State} {u : Str} {a : Int} (h1 : s.num u = some a) : s.ext u "1".toList = some a := by
  rw [ext_val h1 (num_one s)]; simp

theorem part_meta {c : Ctx} {s : State} {arg : Bool} {d : Str} {n : Int} (h : Meta c s arg d n) :
    ∃ p, dimPart c arg d = .ok p ∧ p.len.eval s = some n ∧ (arg = true → ':' ∈ d → p.sub = .all) := by
  cases h with
  | index h1 h2 =>
    obtain ⟨l, h3, h4⟩ := value_inv h2
    refine ⟨⟨.one, .at l, .nm l, .nm l⟩, ?_, rfl, fun _ h => absurd h h1⟩
    simp [dimPart, h1, known_ok h3, Except.bind]
  | horizontalExtent h1 h2 h3 h4 h5 h6 =>
    obtain ⟨l, h7, h8⟩ := value_inv h6
    refine ⟨⟨.ext l "1".toList, .all, .one, .ext l "1".toList⟩, ?_, ?_, fun _ _ => rfl⟩
    · simp only [dimPart, h1, not_true_eq_false, if_false, h2, if_true, horizPart, horizNames, h3, h4, h5, Bool.and_self]
      rw [known_ok (look_one c), known_ok h7]; rfl
    · exact ext_val1 h8
  | @horizontalLoop _ b e h1 h2 h3 h4 h5 h6 =>
    obtain ⟨l, h7, h8⟩ := value_inv h5
    obtain ⟨u, h9, h10⟩ := value_inv h6
    have h4' : (arg && c.loopExt) = false := by
      cases arg <;> cases hl : c.loopExt <;> simp_all
    refine ⟨if arg then ⟨.ext u l, .all, .one, .ext u l⟩ else ⟨.ext u l, .rng l u, .nm l, .nm u⟩, ?_, ?_, ?_⟩
    · simp only [dimPart, h1, not_true_eq_false, if_false, h2, if_true, horizPart, horizNames, h3, h4', Bool.false_eq_true]
      rw [known_ok h7, known_ok h9]; cases arg <;> rfl
    · cases arg <;> simp [Len.eval, State.ext, h8, h10]
    · intro ha _; simp [ha]
  | @horizontalAll _ n h1 h2 h3 h4 =>
    obtain ⟨u, h9, h10⟩ := value_inv h4
    refine ⟨if arg then ⟨.ext u "1".toList, .all, .one, .ext u "1".toList⟩ else ⟨.ext u "1".toList, .rng "1".toList u, .nm "1".toList, .nm u⟩, ?_, ?_, ?_⟩
    · simp only [dimPart, h1, not_true_eq_false, if_false, h2, if_true, horizPart, horizNames, h3, Bool.false_eq_true]
      rw [known_ok (look_one c), known_ok h9]; cases arg <;> rfl
    · cases arg <;> exact ext_val1 h10
    · intro ha _; simp [ha]
  | @range lo hi l h h1 h2 h3 h4 h5 =>
    obtain ⟨ln, h7, h8⟩ := value_inv h4
    obtain ⟨un, h9, h10⟩ := value_inv h5
    refine ⟨⟨.ext un ln, .all, .nm ln, .nm un⟩, ?_, ?_, fun _ _ => rfl⟩
    · simp [dimPart, h3, splitColon_two lo hi h1 h2, known_ok h7, known_ok h9, Except.bind]
    · simp [Len.eval, State.ext, h8, h10]

theorem parts_meta {c : Ctx} {s : State} {arg : Bool} : ∀ {ds : List Str} {ns : List Int}, List.Forall₂ (Meta c s arg) ds ns →
    ∃ ps, dimParts c arg ds = .ok ps ∧ allSome (ps.map (fun p => p.len.eval s)) = some ns ∧ ps.length = ds.length ∧
      (arg = true → (∀ d ∈ ds, ':' ∈ d) → ∀ p ∈ ps, p.sub = .all) := by
  intro ds ns h
  induction h with
  | nil => exact ⟨[], rfl, rfl, rfl, by simp⟩
  | @cons d n ds ns h1 h2 ih =>
    obtain ⟨p, hp, he, hs⟩ := part_meta h1
    obtain ⟨ps, hps, hes, hl, hss⟩ := ih
    refine ⟨p :: ps, ?_, ?_, by simp [hl], ?_⟩
    · simp [dimParts, hp, hps, Except.bind]
    · simp [allSome, he, hes]
    · intro ha hc q hq
      simp only [List.mem_cons] at hq hc
      rcases hq with rfl | hq
      · exact hs ha (hc d (Or.inl rfl))
      · exact hss ha (fun x hx => hc x (Or.inr hx)) q hq

theorem allSome_map (l : List Int) : allSome (l.map some) = some l := by
  induction l with
  | nil => rfl
  | cons a l ih => simp [allSome, ih]

theorem section_all (s : State) (a : Arr) (subs : List Sub) (h : ∀ x ∈ subs, x = .all) (hl : subs.length = a.bounds.length) (hne : subs ≠ []) :
    sectionSize s a subs = some (total a) := by
  have hany : subs.any Sub.isSlice = true := by
    cases subs with
    | nil => exact absurd rfl hne
    | cons x xs => simp [h x (by simp), Sub.isSlice]
  have key : ∀ (subs : List Sub) (bs : List (Int × Int)), (∀ x ∈ subs, x = .all) → subs.length = bs.length →
      (subs.zip bs).map (fun p => p.1.size s p.2) = (bs.map extent).map some := by
    intro subs
    induction subs with
    | nil => intro bs _ h; cases bs <;> simp_all
    | cons x xs ih =>
      intro bs h1 h2
      cases bs with
      | nil => simp at h2
      | cons b bs =>
        have := ih bs (fun y hy => h1 y (by simp [hy])) (by simpa using h2)
        simp only [List.zip_cons_cons, List.map_cons, this]
        rw [h1 x (by simp)]
        rfl
  unfold sectionSize
  rw [if_pos ⟨hl, hany⟩, key subs a.bounds h hl, allSome_map]
  rfl

theorem guardOf_exec {ev : Str → (Str → Option Int) → Bool} {s : State} {t : Str} {b : List Basic}
    (h : t = ".true.".toList ∨ ev t s.mem = true) : Guarded.exec ev s ⟨guardOf t, b⟩ = execL s b := by
  unfold Guarded.exec guardOf
  rcases h with h | h
  · simp [h]
  · by_cases ht : t = ".true.".toList
    · rw [if_pos ht]
    · simp only [if_neg ht, h, if_true]

theorem guardOf_skip {ev : Str → (Str → Option Int) → Bool} {s : State} {t : Str} {b : List Basic}
    (h : t ≠ ".true.".toList) (h2 : ev t s.mem = false) : Guarded.exec ev s ⟨guardOf t, b⟩ = .cont s := by
  unfold Guarded.exec guardOf
  simp only [if_neg h, h2, Bool.false_eq_true, if_false]

end Ccpp.DC
