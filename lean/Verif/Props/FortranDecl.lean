import Verif.Props.FortranType
/-!
# C59: a declaration statement is read as the variables it declares
-/
namespace Ccpp.FDecl

open Ccpp.Chk (balance)
open Ccpp.Env (lstrip_keep rstrip_keep strip_keep strip_lstrip strip_rstrip strip_strip dropWhile_all
  lstrip_rstrip_comm rstrip_rstrip lstrip_lstrip mem_lstrip mem_rstrip mem_strip)

/-! ## The double colon -/

theorem not_infix_cons {c : Char} {s : Str} (h : ¬ [':', ':'] <:+: c :: s) : ¬ [':', ':'] <:+: s :=
  fun h' => h (h'.trans (List.suffix_cons _ _).isInfix)

theorem beforeColons_plain (s : Str) (h : ¬ [':', ':'] <:+: s) : splitColons.beforeColons s = s := by
  induction s with
  | nil => rfl
  | cons c s ih =>
    rw [splitColons.beforeColons.eq_def]
    split
    · next t e =>
      exact absurd ⟨[], t, by rw [e]; rfl⟩ h
    · next _ _ e =>
      injection e with e1 e2
      subst e1 e2
      rw [ih (not_infix_cons h)]
    · next e => cases e

theorem splitColons_at (P E : Str) (h : ¬ [':', ':'] <:+: P ++ [':']) :
    splitColons (P ++ ':' :: ':' :: E) = some (P, splitColons.beforeColons E) := by
  induction P with
  | nil => rfl
  | cons c P ih =>
    have ih := ih (not_infix_cons h)
    rw [List.cons_append, splitColons.eq_def]
    split
    · next t e =>
      exfalso
      injection e with e1 e2
      subst e1
      apply h
      cases P with
      | nil => exact ⟨[], [], rfl⟩
      | cons d P =>
        rw [List.cons_append] at e2
        injection e2 with e3 _
        subst e3
        exact ⟨[], P ++ [':'], by simp⟩
    · next _ _ e =>
      injection e with e1 e2
      subst e1
      rw [← e2, ih]
      rfl
    · next e => cases e

/-! ## Parts -/

theorem no_comma_whole {r : Str} (h : ',' ∉ r) : ∀ x y, r = x ++ ',' :: y → ¬ TopLevel x := by
  intro x y e
  exact absurd (e ▸ by simp) h

/-- A name followed by a parenthesised text is a part. -/
theorem paren_part {h t : Str} (hc : ',' ∉ h) (hb : balance h = 0) (ht : NoEarlyClose t) :
    ∀ x y, h ++ '(' :: (t ++ [')']) = x ++ ',' :: y → ¬ TopLevel x := by
  intro x y e hT
  unfold TopLevel at hT
  rcases List.append_eq_append_iff.1 e with ⟨a', e1, e2⟩ | ⟨c', e1, e2⟩
  · cases a' with
    | nil => injection e2 with e3 _; exact absurd e3 (by decide)
    | cons z a' =>
      rw [List.cons_append] at e2
      injection e2 with e3 e4
      subst e3
      have hpos : 0 ≤ balance a' := by
        rcases List.append_eq_append_iff.1 e4 with ⟨b', f1, f2⟩ | ⟨c', f1, f2⟩
        · cases b' with
          | nil => rw [List.append_nil] at f1; rw [f1]; exact ht t [] (by simp)
          | cons u b' => 
            rw [List.cons_append] at f2
            injection f2 with f3 f4
            exact absurd f4 (by simp)
        · exact ht a' c' f1
      rw [e1, balance_append, hb, show '(' :: a' = ['('] ++ a' from rfl, balance_append] at hT
      have : balance ['('] = 1 := by decide
      omega
  · cases c' with
    | nil => injection e2 with e3 _; exact absurd e3 (by decide)
    | cons z c' =>
      rw [List.cons_append] at e2
      injection e2 with e3 _
      subst e3
      exact hc (e1 ▸ by simp)

theorem balance_plain {s : Str} (h : ∀ c ∈ s, c ≠ '(' ∧ c ≠ ')') : balance s = 0 := by
  have h1 : s.count '(' = 0 := List.count_eq_zero.2 fun hm => (h _ hm).1 rfl
  have h2 : s.count ')' = 0 := List.count_eq_zero.2 fun hm => (h _ hm).2 rfl
  unfold balance; omega

theorem balance_paren {h t : Str} (hb : balance h = 0) (ht : balance t = 0) :
    balance (h ++ '(' :: (t ++ [')'])) = 0 := by
  rw [balance_append, show '(' :: (t ++ [')']) = ['('] ++ (t ++ [')']) from rfl, balance_append, balance_append, hb, ht]
  decide

theorem balance_core {p x q : Str} (hp : Blank p) (hq : Blank q) : balance (p ++ x ++ q) = balance x := by
  rw [balance_append, balance_append, balance_blank hp, balance_blank hq]; omega

/-- What is needed about the text of an item in a list. -/
structure ItemOk (r : Str) : Prop where
  closed : balance r = 0
  whole : ∀ x y, r = x ++ ',' :: y → ¬ TopLevel x
  ne : strip r ≠ []

theorem reassemble_ok {raw : List Str} (h : ∀ r ∈ raw, ItemOk r) : reassemble (commaJoin raw) = some (raw.map strip) := by
  have hi : items raw = raw.map strip := by
    unfold items
    rw [List.filter_eq_self]
    intro a ha
    obtain ⟨r, hr, rfl⟩ := List.mem_map.1 ha
    simpa using (h r hr).ne
  by_cases hne : raw = []
  · subst hne; decide
  · rw [C58_roundtrip raw hne (fun r hr => (h r hr).closed) (fun r hr => (h r hr).whole), hi]

/-! ## Variables -/

theorem name_facts {n : Str} (hn : Chk.IsName n) : n ≠ [] ∧ Tight n ∧ (∀ c ∈ n, c ≠ '(' ∧ c ≠ ')') ∧ ',' ∉ n ∧ '=' ∉ n ∧
    (∀ c ∈ n, c ≠ '"' ∧ c ≠ '\'') := by
  obtain ⟨c, r, e, hc, hw⟩ := IsName.facts hn
  refine ⟨by rw [e]; simp, tight_of_all fun c hc => (isWordC_facts (hw c hc)).1, ?_, ?_, ?_, ?_⟩
  · intro c hc
    obtain ⟨_, _, _, h1, h2, _⟩ := isWordC_facts (hw c hc)
    exact ⟨h1, h2⟩
  · intro hc; exact (isWordC_facts (hw _ hc)).2.2.1 rfl
  · intro hc; exact (isWordC_facts (hw _ hc)).2.1 rfl
  · intro c hc
    obtain ⟨_, _, _, _, _, h1, h2⟩ := isWordC_facts (hw c hc)
    exact ⟨h2, h1⟩

theorem blank_facts {g : Str} (hg : Blank g) : (∀ c ∈ g, c ≠ '(' ∧ c ≠ ')') ∧ ',' ∉ g ∧ '=' ∉ g ∧
    (∀ c ∈ g, c ≠ '"' ∧ c ≠ '\'') := by
  have aux : ∀ d : Char, isWs d = false → ∀ c ∈ g, c ≠ d := by
    rintro d hd c hc rfl; rw [hg c hc] at hd; cases hd
  exact ⟨fun c hc => ⟨aux _ (by decide) c hc, aux _ (by decide) c hc⟩, fun h => aux _ (by decide) _ h rfl,
    fun h => aux _ (by decide) _ h rfl, fun c hc => ⟨aux _ (by decide) c hc, aux _ (by decide) c hc⟩⟩

theorem EntText.ok {e n : Str} {d : Option Str} (h : EntText e n d) : ItemOk e := by
  induction h with
  | scalar hp hn hq =>
    obtain ⟨h1, h2, h3, h4, _⟩ := name_facts hn
    refine ⟨by rw [balance_core hp hq]; exact balance_plain h3, ?_, by rw [strip_core hp h2 hq]; exact h1⟩
    exact part_blank hp hq (no_comma_whole h4)
  | array hp hn hg ht hq =>
    rename_i p n g t q
    obtain ⟨h1, h2, h3, h4, _⟩ := name_facts hn
    obtain ⟨b1, b2, _⟩ := blank_facts hg
    have hb : balance (n ++ g) = 0 := by rw [balance_append, balance_plain h3, balance_plain b1]; rfl
    have hc : ',' ∉ n ++ g := by simp [h4, b2]
    refine ⟨by rw [balance_core hp hq]; exact balance_paren hb ht.closed, part_blank hp hq (paren_part hc hb ht.early), ?_⟩
    have : Tight (n ++ g ++ '(' :: (t ++ [')'])) := by
      have := tight_append h2 (b := [')']) ⟨by decide, by decide⟩ h1 (by simp) (g ++ '(' :: t)
      simpa using this
    rw [strip_core hp this hq]
    simp
  | init he h1 h2 hb hw ih =>
    rename_i e n d v
    refine ⟨?_, ?_, ?_⟩
    · rw [balance_append, ih.closed, show '=' :: v = ['='] ++ v from rfl, balance_append, hb]; decide
    · intro x y e'
      rcases List.append_eq_append_iff.1 e' with ⟨a', e1, e2⟩ | ⟨c', e1, e2⟩
      · cases a' with
        | nil => injection e2 with e3 _; exact absurd e3 (by decide)
        | cons z a' =>
          rw [List.cons_append] at e2
          injection e2 with e3 e4
          subst e3
          have := hw a' y e4
          unfold TopLevel at this ⊢
          rw [e1, balance_append, ih.closed, show '=' :: a' = ['='] ++ a' from rfl, balance_append,
            show balance ['='] = 0 by decide]
          omega
      · cases c' with
        | nil => injection e2 with e3 _; exact absurd e3 (by decide)
        | cons z c' =>
          rw [List.cons_append] at e2
          injection e2 with e3 _
          subst e3
          exact ih.whole x c' e1
    · rw [strip_keep (by decide)]; simp

theorem cutInit_plain {v : Str} (h : '=' ∉ v) : cutInit v = v := by
  unfold cutInit; rw [if_neg h]

theorem cutInit_eq {e v : Str} (hv : '=' ∉ v) : cutInit (e ++ '=' :: v) = rstrip e := by
  unfold cutInit
  rw [if_pos (by simp)]
  have hr : ∀ x ∈ v.reverse, (x != '=') = true := by
    intro x hx
    rw [bne_iff_ne]
    rintro rfl
    exact hv (List.mem_reverse.1 hx)
  obtain ⟨_, d⟩ := takeWhile_stop (p := (· != '=')) (c := '=') e.reverse hr (by decide)
  rw [List.reverse_append, List.reverse_cons, List.append_assoc, List.singleton_append, d]
  simp

theorem matching_dims {h t : Str} (hh : ∀ c ∈ h, c ≠ '(' ∧ c ≠ ')') (hq : ∀ c ∈ h, c ≠ '"' ∧ c ≠ '\'') (ht : DimText t) :
    Chk.balancedParen (h ++ '(' :: (t ++ [')'])) 0 = (some h.length, some (h.length + t.length + 1)) := by
  have hplain : Chk.code (h ++ '(' :: (t ++ [')'])) 0 = h ++ '(' :: (t ++ [')']) := by
    unfold Chk.code
    rw [List.drop_zero, Chk.mask_plain]
    intro c hc
    simp only [List.mem_append, List.mem_cons, List.not_mem_nil, or_false] at hc
    rcases hc with hc | rfl | hc | rfl
    · exact hq c hc
    · decide
    · exact (ht.chars c hc).2
    · decide
  refine (Chk.C26_found_partial _ _ _ _).2 ⟨h.length, h.length + t.length + 1, by omega, by omega, ?_, ?_⟩
  · rw [hplain]
    refine ⟨by simp, fun k hk => ?_⟩
    rw [List.getElem?_append_left hk, List.getElem?_eq_getElem hk]
    have := hh _ (List.getElem_mem hk)
    exact ⟨fun e => this.1 (by injection e), fun e => this.2 (by injection e)⟩
  · rw [hplain]
    have hd : (h ++ '(' :: (t ++ [')'])).drop h.length = '(' :: (t ++ [')']) := List.drop_left
    refine ⟨by omega, by simp only [List.length_append, List.length_cons, List.length_nil]; omega, ?_, ?_⟩
    · rw [hd, List.take_of_length_le (by simp; omega)]
      exact balance_paren (h := []) (by decide) ht.closed
    · intro k h1 h2
      rw [hd]
      obtain ⟨m, rfl⟩ : ∃ m, k = h.length + 1 + m := ⟨k - h.length - 1, by omega⟩
      rw [show h.length + 1 + m - h.length = m + 1 by omega, List.take_succ_cons,
        List.take_append_of_le_length (by omega), show '(' :: t.take m = ['('] ++ t.take m from rfl, balance_append]
      have := ht.early (t.take m) (t.drop m) (List.take_append_drop m t).symm
      have : balance ['('] = 1 := by decide
      omega

/-- Reading one variable. -/
theorem EntText.read {e n : Str} {d : Option Str} (h : EntText e n d) (logger : Bool) (prev : Option (Option Str)) :
    readItem logger prev (strip e) = some (n, d) := by
  induction h with
  | scalar hp hn hq =>
    rename_i p n q
    obtain ⟨h1, h2, h3, h4, h5, _⟩ := name_facts hn
    rw [strip_core hp h2 hq]
    unfold readItem
    simp only [cutInit_plain h5]
    rw [List.findIdx?_eq_none_iff.2 (by intro x hx; simpa using (h3 x hx).1)]
    simp only [strip_tight h2]
  | array hp hn hg ht hq =>
    rename_i p n g t q
    obtain ⟨h1, h2, h3, h4, h5, h6⟩ := name_facts hn
    obtain ⟨b1, b2, b3, b4⟩ := blank_facts hg
    have tight : Tight (n ++ g ++ '(' :: (t ++ [')'])) := by
      have := tight_append h2 (b := [')']) ⟨by decide, by decide⟩ h1 (by simp) (g ++ '(' :: t)
      simpa using this
    have hng : ∀ c ∈ n ++ g, c ≠ '(' ∧ c ≠ ')' := by
      intro c hc; rcases List.mem_append.1 hc with hc | hc
      · exact h3 c hc
      · exact b1 c hc
    have hngq : ∀ c ∈ n ++ g, c ≠ '"' ∧ c ≠ '\'' := by
      intro c hc; rcases List.mem_append.1 hc with hc | hc
      · exact h6 c hc
      · exact b4 c hc
    rw [strip_core hp tight hq]
    unfold readItem
    have heq : '=' ∉ n ++ g ++ '(' :: (t ++ [')']) := by
      simp only [List.mem_append, List.mem_cons, List.not_mem_nil, or_false, not_or]
      exact ⟨⟨h5, b3⟩, by decide, fun h => (ht.chars _ h).1 rfl, by decide⟩
    have hidx : (n ++ g ++ '(' :: (t ++ [')'])).findIdx? (· == '(') = some (n ++ g).length := by
      rw [List.findIdx?_append, List.findIdx?_eq_none_iff.2 (by
        intro x hx; simpa using (hng x hx).1), List.findIdx?_cons]
      simp
    simp only [cutInit_plain heq, hidx, matching_dims hng hngq ht]
    have e1 : (n ++ g ++ '(' :: (t ++ [')'])).take (n ++ g).length = n ++ g := List.take_left
    have e2 : strip (n ++ g) = n := by
      have := strip_core (p := []) (by intro c hc; cases hc) h2 hg
      simpa using this
    rw [e1, e2, List.take_of_length_le (by simp; omega), List.drop_left]
  | init he h1 h2 hb hw ih =>
    rename_i e n d v
    rw [strip_keep (by decide)]
    have hv : '=' ∉ rstrip v := fun h => h2 (mem_rstrip h)
    have hs : '=' ∉ strip e := fun h => h1 (mem_strip h)
    unfold readItem at ih ⊢
    rw [cutInit_eq hv]
    rw [cutInit_plain hs] at ih
    have : rstrip (lstrip e) = strip e := by unfold strip; rw [lstrip_rstrip_comm]
    rw [this]
    exact ih

theorem readItems_ok (logger : Bool) (mk : Str → Option Str → VarRec)
    (es : List (Str × Str × Option Str)) (h : ∀ e ∈ es, EntText e.1 e.2.1 e.2.2) : ∀ prev,
    readItems logger mk prev ((es.map (·.1)).map strip) = some (es.map fun e => mk e.2.1 e.2.2) := by
  induction es with
  | nil => intro prev; rfl
  | cons e es ih =>
    intro prev
    simp only [List.map_cons]
    rw [readItems, (h e List.mem_cons_self).read logger prev]
    simp only
    rw [ih fun x hx => h x (List.mem_cons_of_mem _ hx)]
    rfl

end Ccpp.FDecl
