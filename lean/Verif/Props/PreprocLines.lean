import Verif.Spec.PreprocLines
import Verif.Props.PreprocExpr
/-! # C43: spelling of directives, and their effect on the definitions -/
namespace Ccpp.Preproc
open Spec

theorem dropWhile_white {g t : List Char} (hg : White g) (a : Char) (ha : isWs a = false) :
    (g ++ a :: t).dropWhile isWs = a :: t := by
  induction g with
  | nil => simp [ha]
  | cons x g ih =>
    have hx := hg x (by simp)
    simp [hx, ih (fun c hc => hg c (by simp [hc]))]

theorem ws1_gap {g t : List Char} (hg : Gap g) (a : Char) (ha : isWs a = false) :
    ws1 (g ++ a :: t) = some (a :: t) := by
  obtain ⟨hne, hw⟩ := hg
  cases g with
  | nil => exact absurd rfl hne
  | cons x g =>
    have hx := hw x (by simp)
    have hg : White g := fun c hc => hw c (List.mem_cons_of_mem _ hc)
    simp [ws1, hx, dropWhile_white hg a ha]

theorem symbol_cons {k : List Char} (hk : Symbol k) :
    ∃ a r, k = a :: r ∧ isWs a = false := by
  obtain ⟨hne, hw⟩ := hk
  cases k with
  | nil => exact absurd rfl hne
  | cons a r => exact ⟨a, r, rfl, wordC_not_ws (hw a (by simp))⟩

theorem takeWhile_all {p : Char → Bool} {l : List Char} (h : ∀ c ∈ l, p c = true) :
    l.takeWhile p = l ∧ l.dropWhile p = [] := by
  induction l with
  | nil => exact ⟨rfl, rfl⟩
  | cons a l ih =>
    have := ih (fun c hc => h c (List.mem_cons_of_mem _ hc))
    simp [h a (by simp), this]

theorem takeWhile_stop {k r : List Char} (hk : ∀ c ∈ k, isWordC c = true) (hr : Stop r) :
    (k ++ r).takeWhile isWordC = k ∧ (k ++ r).dropWhile isWordC = r := by
  cases r with
  | nil =>
    rw [List.append_nil]
    exact takeWhile_all hk
  | cons a r => exact takeWhile_append_stop isWordC k a r hk (hr a r rfl)

theorem dropWhile_all {p : Char → Bool} {l r : List Char} (h : ∀ c ∈ l, p c = true) :
    (l ++ r).dropWhile p = r.dropWhile p := by
  induction l with
  | nil => rfl
  | cons a l ih => simp [h a (by simp), ih (fun c hc => h c (by simp [hc]))]

theorem rstrip_white {s b : List Char} (hb : White b) : rstrip (s ++ b) = rstrip s := by
  unfold rstrip
  rw [List.reverse_append, dropWhile_all (by intro c hc; exact hb c (List.mem_reverse.1 hc))]

theorem rstrip_end {s : List Char} (h : ∃ r z, s = r ++ [z] ∧ isWs z = false) : rstrip s = s := by
  obtain ⟨r, z, rfl, hz⟩ := h
  unfold rstrip
  simp [hz]

theorem strip_trimmed {c : List Char} (h : Trimmed c) : strip c = c := by
  unfold strip
  rw [rstrip_end h.2]
  obtain ⟨a, r, rfl, ha⟩ := h.1
  simp [lstrip, ha]

theorem strip_gap {g c : List Char} (hg : White g) (h : Trimmed c) : strip (g ++ c) = c := by
  have h2 : ∃ r z, g ++ c = r ++ [z] ∧ isWs z = false := by
    obtain ⟨r, z, e, hz⟩ := h.2
    exact ⟨g ++ r, z, by rw [e, List.append_assoc], hz⟩
  unfold strip
  rw [rstrip_end h2]
  obtain ⟨a, r, rfl, ha⟩ := h.1
  exact dropWhile_white hg a ha

theorem classify_spelled {d : Dir} {s : List Char} (h : Spelled d s) : classify s = d := by
  cases h with
  | ifdef hg hg' hk =>
    rename_i g g' k
    obtain ⟨a, r, rfl, ha⟩ := symbol_cons hk
    have h1 : (g ++ ("ifdef".toList ++ (g' ++ a :: r))).dropWhile isWs = "ifdef".toList ++ (g' ++ a :: r) :=
      dropWhile_white hg 'i' (by decide)
    unfold classify
    simp only [h1, dropPrefix?_append, Option.bind_some, ws1_gap hg' a ha]
  | ifndef hg hg' hk =>
    rename_i g g' k
    obtain ⟨a, r, rfl, ha⟩ := symbol_cons hk
    have h1 : (g ++ ("ifndef".toList ++ (g' ++ a :: r))).dropWhile isWs = "ifndef".toList ++ (g' ++ a :: r) :=
      dropWhile_white hg 'i' (by decide)
    have n1 : dropPrefix? "ifdef".toList ("ifndef".toList ++ (g' ++ a :: r)) = none := rfl
    unfold classify
    simp only [h1, n1, dropPrefix?_append, Option.bind_some, Option.bind_none, ws1_gap hg' a ha]
  | ifc hg hg' hc =>
    rename_i g g' c
    obtain ⟨b, g1, rfl⟩ : ∃ b g1, g' = b :: g1 := by
      cases g' with
      | nil => exact absurd rfl hg'.1
      | cons b g1 => exact ⟨b, g1, rfl⟩
    have hb : isWs b = true := hg'.2 b (by simp)
    have hw1 : White g1 := fun x hx => hg'.2 x (by simp [hx])
    have h1 : (g ++ ("if".toList ++ b :: (g1 ++ c))).dropWhile isWs = "if".toList ++ b :: (g1 ++ c) :=
      dropWhile_white hg 'i' (by decide)
    have hbd : b ≠ 'd' := by rintro rfl; revert hb; decide
    have hbn : b ≠ 'n' := by rintro rfl; revert hb; decide
    have n1 : dropPrefix? "ifdef".toList ("if".toList ++ b :: (g1 ++ c)) = none := by
      show (if 'd' = b then _ else none) = none
      rw [if_neg (Ne.symm hbd)]
    have n2 : dropPrefix? "ifndef".toList ("if".toList ++ b :: (g1 ++ c)) = none := by
      show (if 'n' = b then _ else none) = none
      rw [if_neg (Ne.symm hbn)]
    unfold classify
    simp only [List.cons_append, h1, n1, n2, dropPrefix?_append, Option.bind_none]
    simp only [beq_iff_eq, hbd, hbn, Bool.or_false, Bool.false_eq_true, if_false, hb, if_true,
      strip_gap hw1 hc, Bool.or_eq_true, or_self]
  | elifc hg hg' hc =>
    rename_i g g' c
    obtain ⟨b, g1, rfl⟩ : ∃ b g1, g' = b :: g1 := by
      cases g' with
      | nil => exact absurd rfl hg'.1
      | cons b g1 => exact ⟨b, g1, rfl⟩
    have hb : isWs b = true := hg'.2 b (by simp)
    have hw1 : White g1 := fun x hx => hg'.2 x (by simp [hx])
    have h1 : (g ++ ("elif".toList ++ b :: (g1 ++ c))).dropWhile isWs = "elif".toList ++ b :: (g1 ++ c) :=
      dropWhile_white hg 'e' (by decide)
    have n1 : ∀ x, dropPrefix? "ifdef".toList ("elif".toList ++ x) = none := fun _ => rfl
    have n2 : ∀ x, dropPrefix? "ifndef".toList ("elif".toList ++ x) = none := fun _ => rfl
    have n3 : ∀ x, dropPrefix? "if".toList ("elif".toList ++ x) = none := fun _ => rfl
    unfold classify
    simp only [h1, n1, n2, n3, dropPrefix?_append, Option.bind_none, List.cons_append, hb, if_true,
      strip_gap hw1 hc]
  | els hg hr =>
    rename_i g r
    have h1 : (g ++ ("else".toList ++ r)).dropWhile isWs = "else".toList ++ r :=
      dropWhile_white hg 'e' (by decide)
    have n1 : dropPrefix? "ifdef".toList ("else".toList ++ r) = none := rfl
    have n2 : dropPrefix? "ifndef".toList ("else".toList ++ r) = none := rfl
    have n3 : dropPrefix? "if".toList ("else".toList ++ r) = none := rfl
    have n4 : dropPrefix? "elif".toList ("else".toList ++ r) = none := rfl
    unfold classify
    simp only [h1, n1, n2, n3, n4, dropPrefix?_append, Option.bind_none]
  | endif hg hr =>
    rename_i g r
    have h1 : (g ++ ("endif".toList ++ r)).dropWhile isWs = "endif".toList ++ r :=
      dropWhile_white hg 'e' (by decide)
    have n1 : dropPrefix? "ifdef".toList ("endif".toList ++ r) = none := rfl
    have n2 : dropPrefix? "ifndef".toList ("endif".toList ++ r) = none := rfl
    have n3 : dropPrefix? "if".toList ("endif".toList ++ r) = none := rfl
    have n4 : dropPrefix? "elif".toList ("endif".toList ++ r) = none := rfl
    have n5 : dropPrefix? "else".toList ("endif".toList ++ r) = none := rfl
    unfold classify
    simp only [h1, n1, n2, n3, n4, n5, dropPrefix?_append, Option.bind_none]
  | define hg hg' hk hg'' hv0 hv hr =>
    rename_i g g' k g'' v r'
    obtain ⟨a, r, hkr, ha⟩ := symbol_cons hk
    obtain ⟨b, w, hvw, hb⟩ : ∃ b w, v = b :: w ∧ isWs b = false := by
      cases v with
      | nil => exact absurd rfl hv0
      | cons b w => exact ⟨b, w, rfl, hv b (by simp)⟩
    have h1 : (g ++ ("define".toList ++ (g' ++ (k ++ (g'' ++ (v ++ r')))))).dropWhile isWs =
        "define".toList ++ (g' ++ (k ++ (g'' ++ (v ++ r')))) := dropWhile_white hg 'd' (by decide)
    have hw : ws1 (g' ++ (k ++ (g'' ++ (v ++ r')))) = some (k ++ (g'' ++ (v ++ r'))) := by
      rw [hkr]; exact ws1_gap hg' a ha
    have hstop : Stop (g'' ++ (v ++ r')) := by
      intro x t hx
      have hxs : isWs x = true := by
        cases g'' with
        | nil => exact absurd rfl hg''.1
        | cons y g2 =>
          simp only [List.cons_append, List.cons.injEq] at hx
          rw [← hx.1]; exact hg''.2 y (by simp)
      cases hwc : isWordC x with
      | false => rfl
      | true => rw [wordC_not_ws hwc] at hxs; cases hxs
    have ht := takeWhile_stop hk.2 hstop
    have hv1 : ws1 (g'' ++ (v ++ r')) = some (v ++ r') := by rw [hvw]; exact ws1_gap hg'' b hb
    have hvt : (v ++ r').takeWhile (fun c => !isWs c) = v := by
      cases r' with
      | nil => rw [List.append_nil]; exact (takeWhile_all (by intro c hc; simp [hv c hc])).1
      | cons x t =>
        exact (takeWhile_append_stop _ v x t (by intro c hc; simp [hv c hc]) (by simp [hr x t rfl])).1
    have n1 : ∀ x, dropPrefix? "ifdef".toList ("define".toList ++ x) = none := fun _ => rfl
    have n2 : ∀ x, dropPrefix? "ifndef".toList ("define".toList ++ x) = none := fun _ => rfl
    have n3 : ∀ x, dropPrefix? "if".toList ("define".toList ++ x) = none := fun _ => rfl
    have n4 : ∀ x, dropPrefix? "elif".toList ("define".toList ++ x) = none := fun _ => rfl
    have n5 : ∀ x, dropPrefix? "else".toList ("define".toList ++ x) = none := fun _ => rfl
    have n6 : ∀ x, dropPrefix? "endif".toList ("define".toList ++ x) = none := fun _ => rfl
    unfold classify
    simp only [h1, n1, n2, n3, n4, n5, n6, dropPrefix?_append, Option.bind_none, Option.bind_some,
      hw, ht.1, ht.2, hv1, hvt, hk.1, if_false]
  | undef hg hg' hk hr =>
    rename_i g g' k r
    obtain ⟨a, r', hkr, ha⟩ := symbol_cons hk
    have h1 : (g ++ ("undef".toList ++ (g' ++ (k ++ r)))).dropWhile isWs =
        "undef".toList ++ (g' ++ (k ++ r)) := dropWhile_white hg 'u' (by decide)
    have hw : ws1 (g' ++ (k ++ r)) = some (k ++ r) := by
      rw [hkr]; exact ws1_gap hg' a ha
    have ht := takeWhile_stop hk.2 hr
    have n1 : ∀ x, dropPrefix? "ifdef".toList ("undef".toList ++ x) = none := fun _ => rfl
    have n2 : ∀ x, dropPrefix? "ifndef".toList ("undef".toList ++ x) = none := fun _ => rfl
    have n3 : ∀ x, dropPrefix? "if".toList ("undef".toList ++ x) = none := fun _ => rfl
    have n4 : ∀ x, dropPrefix? "elif".toList ("undef".toList ++ x) = none := fun _ => rfl
    have n5 : ∀ x, dropPrefix? "else".toList ("undef".toList ++ x) = none := fun _ => rfl
    have n6 : ∀ x, dropPrefix? "endif".toList ("undef".toList ++ x) = none := fun _ => rfl
    have n7 : ∀ x, dropPrefix? "define".toList ("undef".toList ++ x) = none := fun _ => rfl
    unfold classify
    simp only [h1, n1, n2, n3, n4, n5, n6, n7, dropPrefix?_append, Option.bind_none, Option.bind_some,
      hw, ht.1, hk.1, if_false]

/-- **C43** (partial: the spellings in `Spelled`, which leave out `#define NAME` and conditions
written without white space, see `C43_violated`).  A line with any white space around it that spells
a directive is recognised as that directive. -/
theorem C43_recognised_partial (d : Dir) (s a b : List Char) (h : Spelled d s) (ha : White a)
    (hb : White b) (he : ∃ r z, s = r ++ [z] ∧ isWs z = false) :
    lexLine (a ++ s ++ b) = some (.dir d) := by
  obtain ⟨t, rfl⟩ : ∃ t, s = '#' :: t := by cases h <;> exact ⟨_, rfl⟩
  have h1 : lstrip (a ++ '#' :: t ++ b) = '#' :: (t ++ b) := by
    rw [List.append_assoc]; exact dropWhile_white ha '#' (by decide)
  have h2 : strip (a ++ '#' :: t ++ b) = '#' :: t := by
    unfold strip
    rw [rstrip_white hb]
    have he2 : ∃ r z, a ++ '#' :: t = r ++ [z] ∧ isWs z = false := by
      obtain ⟨r, z, e, hz⟩ := he
      exact ⟨a ++ r, z, by rw [e, List.append_assoc], hz⟩
    rw [rstrip_end he2]
    exact dropWhile_white ha '#' (by decide)
  unfold lexLine
  rw [h1, h2]
  simp only [classify_spelled h]

example : Spelled (.define "N".toList "3".toList) "# define N  3 x".toList := by
  have := @Spelled.define [' '] [' '] ['N'] [' ', ' '] ['3'] [' ', 'x'] (by unfold White; decide)
    ⟨by simp, by unfold White; decide⟩ ⟨by simp, by decide⟩ ⟨by simp, by unfold White; decide⟩
    (by simp) (by decide) (by intro a t h; cases h; decide)
  exact this
example : Spelled .endif "#endif /* X */".toList :=
  @Spelled.endif [] " /* X */".toList (by intro c h; cases h) (by intro a t h; cases h; decide)

theorem has_lookup (d : Defs) (x : Name) : d.has x = (d.lookup x).isSome := by
  unfold Defs.has
  induction d with
  | nil => rfl
  | cons p d ih =>
    obtain ⟨q, w⟩ := p
    simp only [List.any_cons, List.lookup_cons]
    by_cases hx : x = q
    · subst hx; simp
    · have h1 : (x == q) = false := by simp [hx]
      have h2 : (q == x) = false := by simp [Ne.symm hx]
      simp only [h1, h2, Bool.false_or]
      exact ih

theorem remove_lookup (d : Defs) (k x : Name) :
    (d.remove k).lookup x = (if x = k then none else d.lookup x) := by
  induction d with
  | nil => simp [Defs.remove]
  | cons p d ih =>
    obtain ⟨q, w⟩ := p
    unfold Defs.remove at ih ⊢
    simp only [List.filter_cons, bne_iff_ne, ne_eq, List.lookup_cons]
    by_cases hq : q = k
    · subst hq
      simp only [not_true_eq_false, if_false, ih]
      by_cases hx : x = q
      · simp [hx]
      · have h1 : (x == q) = false := by simp [hx]
        simp [hx, h1]
    · simp only [hq, not_false_eq_true, if_true, List.lookup_cons, ih]
      by_cases hx : x = q
      · subst hx; simp [hq]
      · have : (x == q) = false := by simp [hx]
        simp [this]

/-- **C43** (effect on the definitions).  After `#define k v` in an active region the value of `k` is
`v` and every other symbol keeps its value; after `#undef k` the symbol `k` has no value and every
other symbol keeps its value; in an inactive region neither changes anything; `#ifdef k` opens a
region that is active iff `k` has a value.  (`List.lookup` is the library's look-up in an association
list.) -/
theorem C43_definitions (ev : List Char → Defs → Bool) (s : St) (k : Name) (v : List Char) :
    (∃ s1, step ev s (.define k v) = .ok s1 ∧ s1.stack = s.stack ∧
      ∀ x, s1.defs.lookup x = if x = k ∧ s.stack.all (·.2) = true then some v else s.defs.lookup x) ∧
    (∃ s1, step ev s (.undef k) = .ok s1 ∧ s1.stack = s.stack ∧
      ∀ x, s1.defs.lookup x = if x = k ∧ s.stack.all (·.2) = true then none else s.defs.lookup x) ∧
    (∃ s1 e, step ev s (.ifdef k) = .ok s1 ∧ s1.defs = s.defs ∧
      s1.stack = (e, (s.defs.lookup k).isSome) :: s.stack) ∧
    (∃ s1 e, step ev s (.ifndef k) = .ok s1 ∧ s1.defs = s.defs ∧
      s1.stack = (e, (s.defs.lookup k).isNone) :: s.stack) := by
  refine ⟨?_, ?_, ?_, ?_⟩
  · refine ⟨_, rfl, by split <;> rfl, fun x => ?_⟩
    unfold St.inTrue
    by_cases ha : s.stack.all (·.2) = true
    · simp only [ha, if_true, and_true, Defs.set, List.lookup_cons, remove_lookup]
      by_cases hx : x = k
      · simp [hx]
      · have : (x == k) = false := by simp [hx]
        simp [hx, this]
    · simp [ha]
  · refine ⟨_, rfl, by split <;> rfl, fun x => ?_⟩
    unfold St.inTrue
    by_cases ha : s.stack.all (·.2) = true
    · simp only [ha, if_true, and_true, remove_lookup]
    · simp [ha]
  · exact ⟨_, s.defs.has k, rfl, rfl, by simp [St.enter, has_lookup]⟩
  · refine ⟨_, !s.defs.has k, rfl, rfl, ?_⟩
    simp [St.enter, has_lookup]

/-- **C41** (a symbol or number on its own).  If `name` is defined as a text that denotes the integer
`m`, `#if name` selects its branch exactly when `m` is not zero, and so does `#if m`. -/
theorem C41_nonzero (toInt : List Char → Option Int) (d : VDefs) (k : Name)
    (v : List Char) (m : Int) (hd : d.get? k = some (some v)) (hv : toInt v = some m) :
    condValue toInt d (.name k) = .ok (decide (m ≠ 0)) ∧
    condValue toInt d (.num m) = .ok (decide (m ≠ 0)) := by
  constructor
  · simp [condValue, eval, hd, preprocBool, pyInt, hv, bne, BEq.beq]
  · simp [condValue, eval, preprocBool, pyInt, bne, BEq.beq]

end Ccpp.Preproc
