import Verif.Spec.CapgenClean
import Verif.Spec.XmlFile
import Verif.Props.Checkers
import Verif.Props.XmlFile
/-!
# C88: lemmas
-/
namespace Ccpp.CG

open Ccpp.XF (Str begTag endTag simpleTag prettyLoop notAngle plain indent isBlank)

/-! ## Paths -/

theorem splitOn_append_gen (sep : Char) (a b : Str) :
    Chk.splitOn sep (a ++ sep :: b) = Chk.splitOn sep a ++ Chk.splitOn sep b := by
  induction a with
  | nil => simp [Chk.splitOn]
  | cons c a ih =>
    rw [List.cons_append, Chk.splitOn, Chk.splitOn]
    by_cases h : c = sep
    · rw [if_pos h, if_pos h, ih]; rfl
    · rw [if_neg h, if_neg h, ih]
      cases hs : Chk.splitOn sep a with
      | nil => exact absurd hs (Chk.splitOn_ne_nil sep a)
      | cons x xs => rfl

theorem parts_iff (s : Str) (ps : List Str) : Parts s ps ↔ ps = Chk.splitOn '/' s := by
  constructor
  · intro h
    induction h with
    | one h => rw [Chk.splitOn_item _ _ h]
    | cons h _ ih => rw [Chk.splitOn_append _ _ _ h, ih]
  · rintro rfl
    have : ∀ n (s : Str), s.length ≤ n → Parts s (Chk.splitOn '/' s) := by
      intro n
      induction n with
      | zero =>
        intro s hs
        have : s = [] := List.length_eq_zero_iff.1 (Nat.le_zero.1 hs)
        subst this
        exact .one (by simp)
      | succ n ih =>
        intro s hs
        by_cases h : '/' ∈ s
        · obtain ⟨a, b, rfl⟩ := List.append_of_mem h
          obtain ⟨a', b', h1, h2⟩ : ∃ a' b', a ++ '/' :: b = a' ++ '/' :: b' ∧ '/' ∉ a' := by
            refine ⟨(a ++ '/' :: b).takeWhile (· != '/'), ((a ++ '/' :: b).dropWhile (· != '/')).tail, ?_, ?_⟩
            · have hd : ∃ t, (a ++ '/' :: b).dropWhile (· != '/') = '/' :: t := by
                clear hs ih h
                induction a with
                | nil => exact ⟨b, by simp⟩
                | cons c a ih =>
                  by_cases hc : c = '/'
                  · exact ⟨a ++ '/' :: b, by simp [hc]⟩
                  · obtain ⟨t, ht⟩ := ih
                    exact ⟨t, by simpa [hc] using ht⟩
              obtain ⟨t, ht⟩ := hd
              have := List.takeWhile_append_dropWhile (p := (· != '/')) (l := a ++ '/' :: b)
              rw [ht] at this ⊢
              exact this.symm
            · intro hm
              have := List.all_takeWhile (p := (· != '/')) (l := a ++ '/' :: b)
              have := List.all_eq_true.1 this _ hm
              simp at this
          rw [h1, Chk.splitOn_append _ _ _ h2]
          refine .cons h2 (ih b' ?_)
          rw [h1] at hs
          simp at hs
          omega
        · rw [Chk.splitOn_item _ _ h]
          exact .one h
    exact this _ s (Nat.le_refl _)

/-- No `..` in a place. -/
def NoUp (d : List Str) : Prop := ∀ x ∈ d, x ≠ ['.', '.']

theorem normStep_noUp {acc : List Str} {c : Str} (h : NoUp acc) : NoUp (normStep true acc c) := by
  unfold normStep
  split
  · exact h
  · split
    · rename_i h1 h2
      rcases h2 with h2 | h2 | h2
      · intro x hx
        rcases List.mem_append.1 hx with hx | hx
        · exact h x hx
        · simp only [List.mem_singleton] at hx
          rw [hx]; exact h2
      · cases h2.1
      · exact absurd rfl (h _ (List.mem_of_getLast? h2))
    · intro x hx
      exact h x (List.dropLast_subset _ hx)

theorem leads_iff (ps : List Str) (d e : List Str) (hd : NoUp d) : Leads d ps e ↔ e = ps.foldl (normStep true) d := by
  induction ps generalizing d with
  | nil =>
    constructor
    · intro h; cases h; rfl
    · rintro rfl; exact .nil
  | cons p ps ih =>
    rw [List.foldl_cons]
    have hn := ih _ (normStep_noUp (c := p) hd)
    by_cases h1 : p = [] ∨ p = ['.']
    · have : normStep true d p = d := by unfold normStep; rw [if_pos h1]
      rw [this] at hn ⊢
      rw [← hn]
      constructor
      · intro h
        cases h with
        | stay _ h => exact h
        | up h => rcases h1 with h1 | h1 <;> cases h1
        | top h => rcases h1 with h1 | h1 <;> cases h1
        | down a b _ _ => rcases h1 with h1 | h1 <;> contradiction
      · exact .stay h1
    · by_cases h2 : p = ['.', '.']
      · have : normStep true d p = d.dropLast := by
          unfold normStep
          rw [if_neg h1, if_neg]
          rintro (h | h | h)
          · exact h h2
          · cases h.1
          · exact hd _ (List.mem_of_getLast? h) rfl
        rw [this] at hn ⊢
        rw [← hn]
        subst h2
        constructor
        · intro h
          cases h with
          | stay a _ => exact absurd a h1
          | up h => rw [List.dropLast_concat]; exact h
          | top h => exact h
          | down _ _ a _ => exact absurd rfl a
        · intro h
          rcases List.eq_nil_or_concat d with rfl | ⟨d', x, rfl⟩
          · exact .top h
          · simp only [List.concat_eq_append] at h ⊢
            rw [List.dropLast_concat] at h
            exact .up h
      · have : normStep true d p = d ++ [p] := by
          unfold normStep
          rw [if_neg h1, if_pos (.inl h2)]
        rw [this] at hn ⊢
        rw [← hn]
        constructor
        · intro h
          cases h with
          | stay a _ => exact absurd a h1
          | up h => exact absurd rfl h2
          | top h => exact absurd rfl h2
          | down _ _ _ h => exact h
        · exact .down (fun h => h1 (.inl h)) (fun h => h1 (.inr h)) h2

theorem slashJoin_eq (l : List Str) : slashJoin l = ['/'].intercalate l := by
  induction l with
  | nil => rfl
  | cons x l ih =>
    cases l with
    | nil => simp [slashJoin, List.intercalate]
    | cons y l =>
      rw [slashJoin, ih]
      simp [List.intercalate, List.intersperse]

theorem fold_join {root q : Str} (hr : Dir root) (hq : isAbs q = false) :
    (Chk.splitOn '/' (pathJoin root q)).foldl (normStep true) [] =
      (Chk.splitOn '/' q).foldl (normStep true) ((Chk.splitOn '/' root).foldl (normStep true) []) := by
  obtain ⟨r, rfl, _⟩ := hr
  unfold pathJoin
  rw [hq, if_neg (by simp)]
  split
  · rename_i h
    rcases h with h | h
    · cases h
    · rcases List.eq_nil_or_concat ('/' :: r) with h0 | ⟨a, x, h0⟩
      · cases h0
      · rw [List.concat_eq_append] at h0
        rw [h0] at h ⊢
        rw [List.getLast?_append] at h
        simp only [List.getLast?_singleton, Option.some_or, Option.some.injEq] at h
        subst h
        rw [List.append_assoc, List.singleton_append, splitOn_append_gen, List.foldl_append]
        have : Chk.splitOn '/' (a ++ ['/']) = Chk.splitOn '/' a ++ [[]] := by
          rw [splitOn_append_gen]; rfl
        rw [this, List.foldl_append]
        congr 1
  · rw [splitOn_append_gen, List.foldl_append]

theorem norm_join {root q : Str} (hr : Dir root) (hq : isAbs q = false) :
    normpath (pathJoin root q) =
      absolute ((Chk.splitOn '/' q).foldl (normStep true) ((Chk.splitOn '/' root).foldl (normStep true) [])) := by
  have hj : ∃ t, pathJoin root q = '/' :: t ∧ t.head? ≠ some '/' := by
    have hq' : q.head? ≠ some '/' := by
      intro h
      cases q with
      | nil => cases h
      | cons c q =>
        simp only [List.head?_cons, Option.some.injEq] at h
        subst h
        cases hq
    obtain ⟨r, rfl, h⟩ := hr
    unfold pathJoin
    rw [hq, if_neg (by simp)]
    split
    · refine ⟨r ++ q, rfl, ?_⟩
      cases r with
      | nil => simpa using hq'
      | cons c r => simpa using h
    · rename_i h2
      cases r with
      | nil => exact absurd (.inr rfl) h2
      | cons c r => exact ⟨c :: r ++ '/' :: q, rfl, by simpa using h⟩
  obtain ⟨t, ht, hh⟩ := hj
  have h1 : isAbs (pathJoin root q) = true := by rw [ht]; rfl
  have h2 : initialSlashes (pathJoin root q) = ['/'] := by
    rw [ht]
    cases t with
    | nil => rfl
    | cons c t =>
      have hc : c ≠ '/' := fun h => hh (by simp [h])
      unfold initialSlashes
      split
      · rfl
      · rename_i h3; simp only [List.cons.injEq] at h3; exact absurd h3.2.1 hc
      · rfl
      · rename_i h3; exact absurd rfl (h3 _)
  unfold normpath absolute
  rw [h1, h2, fold_join hr hq, slashJoin_eq]
  rfl

theorem isAbs_iff (q : Str) : isAbs q = true ↔ q.head? = some '/' := by
  cases q with
  | nil => simp [isAbs]
  | cons c q =>
    by_cases h : c = '/'
    · simp [h, isAbs]
    · simp only [List.head?_cons, Option.some.injEq, h, iff_false]
      unfold isAbs
      split
      · rename_i heq; simp only [List.cons.injEq] at heq; exact absurd heq.1 h
      · simp

theorem pathOf_iff {root q : Str} (hr : Dir root) (p : Str) :
    PathOf root q p ↔ p = if isAbs q then q else normpath (pathJoin root q) := by
  unfold PathOf
  by_cases h : isAbs q = true
  · rw [if_pos h]
    have := (isAbs_iff q).1 h
    simp [this]
  · rw [if_neg h]
    have h' : q.head? ≠ some '/' := fun hh => h ((isAbs_iff q).2 hh)
    rw [norm_join hr (by simpa using h)]
    have hN : NoUp ((Chk.splitOn '/' root).foldl (normStep true) []) := by
      have : ∀ (l : List Str) (d : List Str), NoUp d → NoUp (l.foldl (normStep true) d) := by
        intro l
        induction l with
        | nil => intro d h; exact h
        | cons x l ih => intro d h; exact ih _ (normStep_noUp h)
      exact this _ _ (by intro x hx; cases hx)
    constructor
    · rintro (⟨h1, _⟩ | ⟨_, rs, qs, d, e, h1, h2, h3, h4, rfl⟩)
      · exact absurd h1 h'
      · rw [parts_iff] at h1 h3
        subst h1 h3
        rw [leads_iff _ _ _ (by intro x hx; cases hx)] at h2
        subst h2
        rw [leads_iff _ _ _ hN] at h4
        rw [h4]
    · rintro rfl
      refine .inr ⟨h', _, _, _, _, (parts_iff _ _).2 rfl, (leads_iff _ _ _ (by intro x hx; cases hx)).2 rfl,
        (parts_iff _ _).2 rfl, (leads_iff _ _ _ hN).2 rfl, rfl⟩

/-! ## Lines -/

theorem entry_iff (l q : Str) : Entry l q ↔ q = XF.strip l ∧ ∃ c r, q = c :: r ∧ c ≠ '#' ∧ c ≠ '!' := by
  constructor
  · rintro ⟨⟨a, b, rfl, hab⟩, ⟨c, r, rfl, h1, h2, h3⟩, ⟨x, hx, h4⟩⟩
    refine ⟨?_, c, r, rfl, h2, h3⟩
    refine (XF.strip_of_trim (fun y hy => hab y (List.mem_append_left _ hy)) (fun y hy => hab y (List.mem_append_right _ hy)) ?_).symm
    refine ⟨fun y hy => ?_, fun y hy => ?_⟩
    · simp only [List.head?_cons, Option.some.injEq] at hy; rw [← hy]; exact h1
    · rw [hx] at hy; cases hy; exact h4
  · rintro ⟨rfl, c, r, h1, h2, h3⟩
    obtain ⟨a, b, hs, ha, hb⟩ := XF.strip_split l
    obtain ⟨t1, t2⟩ := XF.strip_trim l
    refine ⟨⟨a, b, hs, fun y hy => (List.mem_append.1 hy).elim (ha y) (hb y)⟩, ⟨c, r, h1, t1 c (by rw [h1]; rfl), h2, h3⟩, ?_⟩
    rw [h1] at t2 ⊢
    have := List.getLast?_eq_some_getLast (l := c :: r) (by simp)
    exact ⟨_, this, t2 _ this⟩

theorem linePath_some {root l p : Str} (hr : Dir root) : linePath root l = some p ↔ ∃ q, Entry l q ∧ PathOf root q p := by
  unfold linePath
  simp only [entry_iff, pathOf_iff hr]
  cases h : XF.strip l with
  | nil => simp
  | cons c r =>
    simp only
    by_cases hc : c ≠ '#' ∧ c ≠ '!'
    · rw [if_pos hc]
      constructor
      · intro h1
        cases h1
        exact ⟨c :: r, ⟨rfl, c, r, rfl, hc.1, hc.2⟩, rfl⟩
      · rintro ⟨q, ⟨rfl, _⟩, rfl⟩
        rfl
    · rw [if_neg hc]
      constructor
      · intro h1; cases h1
      · rintro ⟨q, ⟨rfl, c', r', h1, h2⟩, _⟩
        cases h1
        exact absurd h2 hc

theorem linePath_none {root l : Str} : linePath root l = none ↔ ¬ ∃ q, Entry l q := by
  unfold linePath
  simp only [entry_iff]
  cases h : XF.strip l with
  | nil => simp
  | cons c r =>
    simp only
    by_cases hc : c ≠ '#' ∧ c ≠ '!'
    · rw [if_pos hc]
      simp only [reduceCtorEq, false_iff]
      intro hno
      refine hno ?_
      exact ⟨c :: r, rfl, c, r, rfl, hc.1, hc.2⟩
    · rw [if_neg hc]
      simp only [true_iff]
      rintro ⟨q, rfl, c', r', h1, h2⟩
      cases h1
      exact hc h2

theorem listed_iff {root : Str} (hr : Dir root) (ls ps : List Str) : Listed root ls ps ↔ ps = ls.filterMap (linePath root) := by
  induction ls generalizing ps with
  | nil =>
    constructor
    · intro h; cases h; rfl
    · rintro rfl; exact .nil
  | cons l ls ih =>
    constructor
    · intro h
      cases h with
      | skip h1 h2 => rw [List.filterMap_cons_none (linePath_none.2 h1)]; exact (ih _).1 h2
      | path h1 h2 h3 => rw [List.filterMap_cons_some ((linePath_some hr).2 ⟨_, h1, h2⟩), (ih _).1 h3]
    · rintro rfl
      cases h : linePath root l with
      | none =>
        rw [List.filterMap_cons_none h]
        exact .skip (linePath_none.1 h) ((ih _).2 rfl)
      | some p =>
        rw [List.filterMap_cons_some h]
        obtain ⟨q, h1, h2⟩ := (linePath_some hr).1 h
        exact .path h1 h2 ((ih _).2 rfl)

theorem splitOn_lines (ls : List Str) (h : ∀ l ∈ ls, '\n' ∉ l) (r : Str) :
    Chk.splitOn '\n' (ls.flatMap (· ++ ['\n']) ++ r) = ls ++ Chk.splitOn '\n' r := by
  induction ls with
  | nil => rfl
  | cons l ls ih =>
    rw [List.flatMap_cons, List.append_assoc, List.append_assoc, List.singleton_append,
      Chk.splitOn_append _ _ _ (h l (by simp)), ih fun x hx => h x (by simp [hx])]
    rfl

theorem linePath_nil (root : Str) : linePath root [] = none := rfl

theorem lines_paths {text : Str} {ls : List Str} (h : Lines text ls) (root : Str) :
    (Chk.splitOn '\n' text).filterMap (linePath root) = ls.filterMap (linePath root) := by
  obtain ⟨h1, rfl | ⟨l, ls', rfl, rfl⟩⟩ := h
  · have := splitOn_lines ls h1 []
    rw [List.append_nil] at this
    rw [this, List.filterMap_append]
    simp [Chk.splitOn, linePath_nil]
  · rw [splitOn_lines ls' fun x hx => h1 x (by simp [hx]), Chk.splitOn_item _ _ (h1 l (by simp))]

theorem removeLines_eq (real : Str → Str) (root : Str) (s : St) (ls : List Str) :
    removeLines real root s ls = (ls.filterMap (linePath root)).foldl (remove real) s := by
  induction ls generalizing s with
  | nil => rfl
  | cons l ls ih =>
    unfold removeLines
    cases h : linePath root l with
    | none => rw [List.filterMap_cons_none h]; exact ih s
    | some p => rw [List.filterMap_cons_some h]; exact ih _

theorem remove_files (real : Str → Str) (s : St) (p x : Str) :
    (remove real s p).files x = true ↔ s.files x = true ∧ x ≠ real p := by
  unfold remove
  split
  · simp only
    split
    · simp_all
    · simp_all
  · rename_i h
    constructor
    · intro hx
      refine ⟨hx, ?_⟩
      rintro rfl
      exact h hx
    · exact fun h => h.1

theorem remove_success (real : Str → Str) (s : St) (p : Str) :
    (remove real s p).success = true ↔ s.success = true ∧ s.files (real p) = true := by
  unfold remove
  split <;> simp_all

theorem foldl_remove (real : Str → Str) (ps : List Str) (s : St) :
    (∀ x, ((ps.foldl (remove real) s).files x = true ↔ s.files x = true ∧ ∀ p ∈ ps, x ≠ real p)) ∧
    ((ps.foldl (remove real) s).success = true ↔ s.success = true ∧ (ps.map real).Nodup ∧ ∀ p ∈ ps, s.files (real p) = true) := by
  induction ps generalizing s with
  | nil => simp
  | cons p ps ih =>
    obtain ⟨i1, i2⟩ := ih (remove real s p)
    rw [List.foldl_cons]
    refine ⟨fun x => ?_, ?_⟩
    · rw [i1, remove_files]
      simp only [List.mem_cons, forall_eq_or_imp, and_assoc]
    · rw [i2, remove_success]
      simp only [List.map_cons, List.nodup_cons, List.mem_map, not_exists, not_and, List.mem_cons, forall_eq_or_imp, remove_files]
      constructor
      · rintro ⟨⟨h1, h2⟩, h3, h4⟩
        exact ⟨h1, ⟨fun q hq => (h4 q hq).2, h3⟩, h2, fun q hq => (h4 q hq).1⟩
      · rintro ⟨h1, ⟨h2, h3⟩, h4, h5⟩
        exact ⟨⟨h1, h4⟩, h3, fun q hq => ⟨h5 q hq, h2 q hq⟩⟩

end Ccpp.CG
