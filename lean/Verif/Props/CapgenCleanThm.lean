import Verif.Props.CapgenClean
/-!
# C88: the theorems
-/
namespace Ccpp.CG

open Ccpp.XF (Str begTag endTag simpleTag prettyLoop notAngle plain indent isBlank)

/-- **C88, lists of paths.**  Cleaning with a file that lists paths (one per line, relative to the directory of the file;
blank lines and comments are skipped) removes exactly the files listed and the file itself.  It is reported as successful
exactly if all of them existed, and none was listed twice. -/
theorem C88_list (real : Str → Str) (root capfile text : Str) (files : Str → Bool) (hr : Dir root)
    (ls ps : List Str) (hl : Lines text ls) (hp : Listed root ls ps) :
    (∀ x, (deletePathnames real root capfile text files).files x = true ↔
      files x = true ∧ ∀ p ∈ ps ++ [capfile], x ≠ real p) ∧
    ((deletePathnames real root capfile text files).success = true ↔
      ((ps ++ [capfile]).map real).Nodup ∧ ∀ p ∈ ps ++ [capfile], files (real p) = true) := by
  have hps := (listed_iff hr ls ps).1 hp
  have : deletePathnames real root capfile text files = (ps ++ [capfile]).foldl (remove real) ⟨files, true⟩ := by
    unfold deletePathnames
    rw [removeLines_eq, lines_paths hl, ← hps, List.foldl_append]
    rfl
  rw [this]
  obtain ⟨h1, h2⟩ := foldl_remove real (ps ++ [capfile]) ⟨files, true⟩
  exact ⟨h1, by rw [h2]; simp⟩

/-- Every text has lines, and every list of lines lists some paths. -/
theorem C88_list_total (root text : Str) (hr : Dir root) : ∃ ls ps, Lines text ls ∧ Listed root ls ps := by
  have hl : ∃ ls, Lines text ls := by
    have : ∀ n (s : Str), s.length ≤ n → ∃ ls, Lines s ls := by
      intro n
      induction n with
      | zero =>
        intro s hs
        have : s = [] := List.length_eq_zero_iff.1 (Nat.le_zero.1 hs)
        subst this
        exact ⟨[], by simp, .inl rfl⟩
      | succ n ih =>
        intro s hs
        by_cases h : '\n' ∈ s
        · have hd := List.takeWhile_append_dropWhile (p := (· != '\n')) (l := s)
          cases hx : s.dropWhile (· != '\n') with
          | nil =>
            rw [hx, List.append_nil] at hd
            rw [← hd] at h
            have := List.all_eq_true.1 (List.all_takeWhile (p := (· != '\n')) (l := s)) _ h
            simp at this
          | cons c r =>
            have hc : c = '\n' := by
              have := List.head_dropWhile_not (p := (· != '\n')) (l := s) (by rw [hx]; simp)
              simp only [hx, List.head_cons] at this
              simpa using this
            subst hc
            rw [hx] at hd
            have hnot : '\n' ∉ s.takeWhile (· != '\n') := by
              intro hm
              have := List.all_eq_true.1 (List.all_takeWhile (p := (· != '\n')) (l := s)) _ hm
              simp at this
            obtain ⟨ls, h1, h2⟩ := ih r (by
              have := congrArg List.length hd
              simp at this
              omega)
            refine ⟨s.takeWhile (· != '\n') :: ls, ?_, ?_⟩
            · intro l hl
              rcases List.mem_cons.1 hl with rfl | hl
              · exact hnot
              · exact h1 l hl
            · rcases h2 with h2 | ⟨l, ls', rfl, h2⟩
              · left
                rw [List.flatMap_cons, ← h2, List.append_assoc, List.singleton_append, hd]
              · right
                refine ⟨l, s.takeWhile (· != '\n') :: ls', rfl, ?_⟩
                rw [List.flatMap_cons, List.append_assoc, ← h2, List.append_assoc, List.singleton_append, hd]
        · exact ⟨[s], by simpa using h, .inr ⟨s, [], rfl, rfl⟩⟩
    exact this _ text (Nat.le_refl _)
  obtain ⟨ls, hl⟩ := hl
  exact ⟨ls, _, hl, (listed_iff hr ls _).2 rfl⟩

/-! ## What a data table contains -/

/-- The text ends with a closing bracket. -/
def Ends (s : Str) : Prop := s.getLast? = some '>'

theorem ends_of_eq {s : Str} (a : Str) (h : s = a ++ ['>']) : Ends s := by
  unfold Ends
  rw [h, List.getLast?_append]
  rfl

theorem begTag_spec {s o r : Str} (h : begTag s = some (o, r)) : s = o ++ r ∧ Ends o ∧ o.head? = some '<' := by
  unfold begTag at h
  split at h
  · rename_i c t
    split at h
    · cases h
    · have hd := List.takeWhile_append_dropWhile (p := notAngle) (l := t)
      split at h
      · rename_i x rest hx
        cases h
        rw [hx] at hd
        refine ⟨?_, ends_of_eq ('<' :: c :: t.takeWhile notAngle ++ [x]) (by simp), rfl⟩
        conv => lhs; rw [← hd]
        simp
      · rename_i rest _ hx
        split at h
        · split at h
          · cases h
            rw [hx] at hd
            refine ⟨?_, ends_of_eq ('<' :: c :: t.takeWhile notAngle) rfl, rfl⟩
            conv => lhs; rw [← hd]
            simp
          · cases h
        · cases h
      · cases h
  · cases h

theorem endTag_spec {s o r : Str} (h : endTag s = some (o, r)) : s = o ++ r ∧ Ends o ∧ o.head? = some '<' := by
  unfold endTag at h
  split at h
  · rename_i t
    have hd := List.takeWhile_append_dropWhile (p := plain) (l := t)
    split at h
    · rename_i c cs rest h1 h2
      cases h
      rw [h1, h2] at hd
      refine ⟨by simp [← hd], ends_of_eq ('<' :: '/' :: c :: cs) rfl, rfl⟩
    · cases h
  · cases h

theorem simpleTag_spec {s o r : Str} (h : simpleTag s = some (o, r)) : s = o ++ r ∧ Ends o ∧ o.head? = some '<' := by
  unfold simpleTag at h
  split at h
  · rename_i c t
    split at h
    · cases h
    · have hd := List.takeWhile_append_dropWhile (p := plain) (l := t)
      split at h
      · rename_i x xs rest h1 h2
        cases h
        rw [h1, h2] at hd
        have e : "/>".toList = ['/', '>'] := rfl
        refine ⟨by rw [e, ← hd]; simp, ends_of_eq ('<' :: c :: x :: xs ++ ['/']) (by rw [e]; simp), rfl⟩
      · cases h
  · cases h

theorem indent_newline (n : Nat) : '\n' ∉ indent n := by
  unfold indent
  intro h
  rw [List.mem_flatten] at h
  obtain ⟨l, hl, h⟩ := h
  rw [List.eq_of_mem_replicate hl] at h
  exact absurd h (by decide)

/-- All lines end with a closing bracket or are empty. -/
def GoodLines (o : Str) : Prop := ∀ l ∈ Chk.splitOn '\n' o, l = [] ∨ Ends l

theorem good_newline {x o : Str} (hx : '\n' ∉ x) (he : Ends x) (h : GoodLines o) : GoodLines (x ++ ['\n'] ++ o) := by
  intro l hl
  rw [List.append_assoc, List.singleton_append, Chk.splitOn_append _ _ _ hx] at hl
  rcases List.mem_cons.1 hl with rfl | hl
  · exact .inr he
  · exact h l hl

theorem splitOn_prepend (sep : Char) (x o : Str) (hx : sep ∉ x) :
    ∃ h t, Chk.splitOn sep o = h :: t ∧ Chk.splitOn sep (x ++ o) = (x ++ h) :: t := by
  induction x with
  | nil =>
    cases hs : Chk.splitOn sep o with
    | nil => exact absurd hs (Chk.splitOn_ne_nil sep o)
    | cons h t => exact ⟨h, t, rfl, hs⟩
  | cons c x ih =>
    obtain ⟨h, t, h1, h2⟩ := ih (fun hm => hx (by simp [hm]))
    refine ⟨h, t, h1, ?_⟩
    rw [List.cons_append, Chk.splitOn, if_neg (by rintro rfl; exact hx (by simp)), h2]
    rfl

theorem ends_append {a b : Str} (h : Ends b) : Ends (a ++ b) := by
  unfold Ends at h ⊢
  rw [List.getLast?_append, h]
  rfl

theorem good_join {x o : Str} (hx : '\n' ∉ x) (he : Ends x ∨ (o ≠ [] ∧ o.head? ≠ some '\n')) (h : GoodLines o) :
    GoodLines (x ++ o) := by
  obtain ⟨hd, t, h1, h2⟩ := splitOn_prepend '\n' x o hx
  intro l hl
  rw [h2] at hl
  unfold GoodLines at h
  rw [h1] at h
  rcases List.mem_cons.1 hl with rfl | hl
  · rcases h hd (by simp) with rfl | h3
    · rcases he with he | ⟨h4, h5⟩
      · rw [List.append_nil]; exact .inr he
      · exfalso
        cases o with
        | nil => exact h4 rfl
        | cons c o =>
          rw [Chk.splitOn] at h1
          rw [if_neg (by rintro rfl; exact h5 rfl)] at h1
          split at h1 <;> cases h1
    · exact .inr (ends_append h3)
  · exact h l (List.mem_cons_of_mem _ hl)

theorem strip_ends {s : Str} (h : Ends s) : Ends (XF.strip s) := by
  obtain ⟨a, b, hs, ha, hb⟩ := XF.strip_split s
  unfold Ends at h
  rw [hs, List.getLast?_append] at h
  cases hbl : b.getLast? with
  | some c =>
    rw [hbl] at h
    simp only [Option.some_or, Option.some.injEq] at h
    subst h
    exact absurd (hb _ (List.mem_of_getLast? hbl)) (by decide)
  | none =>
    rw [hbl, Option.none_or, List.getLast?_append] at h
    cases hsl : (XF.strip s).getLast? with
    | some c => rw [hsl] at h; unfold Ends; rw [hsl]; exact h
    | none =>
      rw [List.getLast?_eq_none_iff] at hsl hbl
      rw [hsl, List.getLast?_nil, Option.none_or] at h
      exact absurd (ha _ (List.mem_of_getLast? h)) (by decide)

theorem ends_drop {a r : Str} (h : Ends (a ++ r)) : r = [] ∨ Ends r := by
  cases r with
  | nil => exact .inl rfl
  | cons c r =>
    right
    unfold Ends at h ⊢
    rw [List.getLast?_append] at h
    have := List.getLast?_eq_some_getLast (l := c :: r) (by simp)
    rw [this] at h ⊢
    simpa using h

/-- Before a tag there is no newline. -/
theorem pretty_tag_head {fuel ind : Nat} {lt : Bool} {s o : Str} (hs : s.head? = some '<')
    (h : prettyLoop fuel ind lt s = some o) : o ≠ [] ∧ o.head? ≠ some '\n' := by
  cases s with
  | nil => cases hs
  | cons c s =>
    simp only [List.head?_cons, Option.some.injEq] at hs
    subst hs
    have key : ∀ (k : Nat) (t rest : Str), t.head? = some '<' →
        indent k ++ t ++ rest ≠ [] ∧ (indent k ++ t ++ rest).head? ≠ some '\n' := by
      intro k t rest ht
      cases t with
      | nil => cases ht
      | cons x t =>
        simp only [List.head?_cons, Option.some.injEq] at ht
        subst ht
        refine ⟨by simp, ?_⟩
        intro hh
        cases hi : indent k with
        | nil => rw [hi] at hh; simp at hh
        | cons y ys =>
          rw [hi] at hh
          simp only [List.cons_append, List.head?_cons, Option.some.injEq] at hh
          subst hh
          exact indent_newline k (by rw [hi]; simp)
    cases fuel with
    | zero => rw [prettyLoop] at h; cases h; all_goals simp
    | succ fuel =>
      rw [prettyLoop] at h
      · split at h
        · rename_i t r hb
          obtain ⟨_, _, h3⟩ := begTag_spec hb
          split at h
          · cases h
          · rename_i c' _
            rw [Option.map_eq_some_iff] at h
            obtain ⟨o', _, rfl⟩ := h
            rw [List.append_assoc]
            exact key _ _ _ h3
        · split at h
          · rename_i t r hb
            obtain ⟨_, _, h3⟩ := endTag_spec hb
            rw [Option.map_eq_some_iff] at h
            obtain ⟨o', _, rfl⟩ := h
            split
            · have := key 0 t (['\n'] ++ o') h3
              simpa [indent] using this
            · rw [List.append_assoc]
              exact key _ _ _ h3
          · split at h
            · rename_i t r hb
              obtain ⟨_, _, h3⟩ := simpleTag_spec hb
              rw [Option.map_eq_some_iff] at h
              obtain ⟨o', _, rfl⟩ := h
              rw [List.append_assoc]
              exact key _ _ _ h3
            · simp at h
      · simp

/-- The lines written for a text in one line. -/
theorem pretty_lines (fuel : Nat) : ∀ (ind : Nat) (lt : Bool) (s o : Str), '\n' ∉ s → (s = [] ∨ Ends s) →
    prettyLoop fuel ind lt s = some o → GoodLines o := by
  induction fuel with
  | zero =>
    intro ind lt s o hn he h
    cases s with
    | nil =>
      rw [prettyLoop] at h; cases h
      intro l hl
      simp only [Chk.splitOn, List.mem_singleton] at hl
      exact .inl hl
    | cons c s => rw [prettyLoop] at h; cases h
  | succ fuel ih =>
    intro ind lt s o hn he h
    cases s with
    | nil =>
      rw [prettyLoop] at h; cases h
      intro l hl
      simp only [Chk.splitOn, List.mem_singleton] at hl
      exact .inl hl
    | cons c s =>
      have hE : Ends (c :: s) := he.resolve_left (by simp)
      have rest : ∀ {t r : Str}, c :: s = t ++ r → '\n' ∉ t ∧ '\n' ∉ r ∧ (r = [] ∨ Ends r) := by
        intro t r hs
        rw [hs] at hn hE
        exact ⟨fun hm => hn (List.mem_append_left _ hm), fun hm => hn (List.mem_append_right _ hm), ends_drop hE⟩
      have pre : ∀ (k : Nat) {t : Str}, '\n' ∉ t → '\n' ∉ indent k ++ t := fun k t ht hm =>
        (List.mem_append.1 hm).elim (indent_newline k) ht
      rw [prettyLoop] at h
      · split at h
        · rename_i t r hb
          obtain ⟨h1, h2, h3⟩ := begTag_spec hb
          obtain ⟨k1, k2, k3⟩ := rest h1
          split at h
          · cases h
          · rename_i c' r'
            rw [Option.map_eq_some_iff] at h
            obtain ⟨o', h4, rfl⟩ := h
            have := ih _ _ _ _ k2 k3 h4
            split
            · rw [List.append_nil]
              exact good_join (pre ind k1) (.inl (ends_append h2)) this
            · exact good_newline (pre ind k1) (ends_append h2) this
        · split at h
          · rename_i t r hb
            obtain ⟨h1, h2, h3⟩ := endTag_spec hb
            obtain ⟨k1, k2, k3⟩ := rest h1
            rw [Option.map_eq_some_iff] at h
            obtain ⟨o', h4, rfl⟩ := h
            have := ih _ _ _ _ k2 k3 h4
            split
            · rw [List.nil_append]
              exact good_newline k1 h2 this
            · exact good_newline (pre (ind - 1) k1) (ends_append h2) this
          · split at h
            · rename_i t r hb
              obtain ⟨h1, h2, h3⟩ := simpleTag_spec hb
              obtain ⟨k1, k2, k3⟩ := rest h1
              rw [Option.map_eq_some_iff] at h
              obtain ⟨o', h4, rfl⟩ := h
              exact good_newline (pre ind k1) (ends_append h2) (ih _ _ _ _ k2 k3 h4)
            · split at h
              · cases h
              · rename_i t ht
                have hd := (List.takeWhile_append_dropWhile (p := (· != '<')) (l := c :: s)).symm
                obtain ⟨k1, k2, k3⟩ := rest hd
                rw [Option.map_eq_some_iff] at h
                obtain ⟨o', h4, rfl⟩ := h
                have hgood := ih _ _ _ _ k2 k3 h4
                refine good_join (fun hm => k1 (XF.strip_mem hm)) ?_ hgood
                cases hr : (c :: s).dropWhile (· != '<') with
                | nil =>
                  left
                  rw [hr, List.append_nil] at hd
                  rw [← hd]
                  exact strip_ends hE
                | cons x xs =>
                  right
                  have hx : x = '<' := by
                    have := List.head_dropWhile_not (p := (· != '<')) (l := c :: s) (by rw [hr]; simp)
                    simp only [hr, List.head_cons] at this
                    simpa using this
                  rw [hr] at h4
                  exact pretty_tag_head (by rw [hx]; rfl) h4
      · simp

end Ccpp.CG
