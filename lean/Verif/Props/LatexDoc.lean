import Verif.Spec.LatexDoc
/-!
# C110: the texts of the LaTeX document
-/
namespace Ccpp.LX

/-- The escape of one character. -/
def esc (c : Char) : Str := if c = '%' ∨ c = '_' ∨ c = '&' then ['\\', c] else [c]

theorem escape_eq (s : Str) : escape s = s.flatMap esc := by
  unfold escape repl
  rw [List.flatMap_assoc, List.flatMap_assoc]
  congr 1
  funext c
  unfold esc
  by_cases h1 : c = '%'
  · subst h1; decide
  by_cases h2 : c = '_'
  · subst h2; decide
  by_cases h3 : c = '&'
  · subst h3; decide
  simp [h1, h2, h3]

theorem escape_append (s t : Str) : escape (s ++ t) = escape s ++ escape t := by
  simp only [escape_eq, List.flatMap_append]

/-- A text without `\ { } # $ ^ ~` is typeset as itself (missing: `C110_special_violated`). -/
theorem C110_partial {s : Str} (h : ∀ c ∈ s, c ∉ ['\\', '{', '}', '#', '$', '^', '~']) : Typeset (escape s) s := by
  rw [escape_eq]
  induction s with
  | nil => exact .nil
  | cons c s ih =>
    have ih := ih fun d hd => h d (.tail _ hd)
    have hc := h c (.head _)
    rw [List.flatMap_cons]
    unfold esc
    by_cases hs : c = '%' ∨ c = '_' ∨ c = '&'
    · rw [if_pos hs]
      refine .ctrl ?_ ih
      rcases hs with rfl | rfl | rfl <;> decide
    · rw [if_neg hs]
      refine .char ?_ ih
      simp only [List.mem_cons, List.not_mem_nil, or_false, not_or] at hc hs
      simp only [special, List.mem_cons, List.not_mem_nil, or_false, not_or]
      exact ⟨hc.1, hc.2.1, hc.2.2.1, hs.1, hs.2.2, hs.2.1, hc.2.2.2.1, hc.2.2.2.2.1, hc.2.2.2.2.2.1, hc.2.2.2.2.2.2⟩

/-- A source is typeset in one way only. -/
theorem C110_unique {s t t' : Str} (h : Typeset s t) (h' : Typeset s t') : t = t' := by
  induction h generalizing t' with
  | nil => cases h'; rfl
  | char hc _ ih =>
    cases h' with
    | char _ h => rw [ih h]
    | ctrl => exact absurd (by decide) hc
  | ctrl hc _ ih =>
    cases h' with
    | char hc' => exact absurd (by decide) hc'
    | ctrl _ h => rw [ih h]

theorem prefix_escape : ∀ {k s : Str}, (∀ c ∈ k, c ∉ special) → k <+: s.flatMap esc → k <+: s
  | [], _, _, _ => List.nil_prefix
  | x :: k, [], _, h => by simp at h
  | x :: k, c :: s, hk, h => by
    rw [List.flatMap_cons] at h
    unfold esc at h
    by_cases hs : c = '%' ∨ c = '_' ∨ c = '&'
    · rw [if_pos hs] at h
      simp only [List.cons_append, List.cons_prefix_cons] at h
      exact absurd (by rw [h.1]; decide) (hk x (.head _))
    · rw [if_neg hs] at h
      simp only [List.cons_append, List.nil_append, List.cons_prefix_cons] at h
      exact List.cons_prefix_cons.2 ⟨h.1, prefix_escape (fun d hd => hk d (.tail _ hd)) h.2⟩

theorem infix_escape {k : Str} (hk : ∀ c ∈ k, c ∉ special) (hne : k ≠ []) : ∀ {s : Str}, k <:+: s.flatMap esc → k <:+: s
  | [], h => h
  | c :: s, h => by
    rw [List.flatMap_cons] at h
    unfold esc at h
    by_cases hs : c = '%' ∨ c = '_' ∨ c = '&'
    · rw [if_pos hs] at h
      obtain ⟨x, k', rfl⟩ := List.exists_cons_of_ne_nil hne
      have hx := hk x (.head _)
      rcases List.infix_cons_iff.1 h with h | h
      · rw [List.cons_prefix_cons] at h
        exact absurd (by rw [h.1]; decide) hx
      · rcases List.infix_cons_iff.1 h with h | h
        · have h := (List.cons_prefix_cons.1 h).1
          exact absurd (by rw [h]; rcases hs with rfl | rfl | rfl <;> decide) hx
        · exact (infix_escape hk hne h).trans (List.suffix_cons c s).isInfix
    · rw [if_neg hs] at h
      rcases List.infix_cons_iff.1 h with h' | h
      · have : (x : Str) → x = c :: s → k <+: x.flatMap esc → k <+: x := fun x _ => prefix_escape hk
        refine (this (c :: s) rfl ?_).isInfix
        rw [List.flatMap_cons, esc, if_neg hs]
        exact h'
      · exact (infix_escape hk hne h).trans (List.suffix_cons c s).isInfix

theorem prefix_blank {k a r : Str} (hb : ' ' ∉ k) (h : k <+: a ++ ' ' :: r) : k <+: a := by
  induction a generalizing k with
  | nil =>
    cases k with
    | nil => exact List.nil_prefix
    | cons x k =>
      rw [List.nil_append, List.cons_prefix_cons] at h
      exact absurd (by rw [h.1]; exact .head _) hb
  | cons c a ih =>
    cases k with
    | nil => exact List.nil_prefix
    | cons x k =>
      rw [List.cons_append, List.cons_prefix_cons] at h
      exact List.cons_prefix_cons.2 ⟨h.1, ih (fun m => hb (.tail _ m)) h.2⟩

theorem dropPrefix_isSome {k s : Str} : (dropPrefix? k s).isSome = true ↔ k <+: s := by
  rw [Option.isSome_iff_exists]
  constructor
  · rintro ⟨r, h⟩; exact ⟨r, (dropPrefix?_eq_some.1 h).symm⟩
  · rintro ⟨r, h⟩; exact ⟨r, dropPrefix?_eq_some.2 h.symm⟩

theorem find_first {k r : Str} (hb : ' ' ∉ k) (hne : k ≠ []) : ∀ {a : Str}, ¬k <:+: a → find k (a ++ ' ' :: (k ++ r)) = some (a.length + 1)
  | [], _ => by
    rw [List.nil_append, find, if_neg]
    · cases hk : k ++ r with
      | nil => exact absurd (List.append_eq_nil_iff.1 hk).1 hne
      | cons c s =>
        rw [find, if_pos]
        · rfl
        · rw [dropPrefix_isSome, ← hk]
          exact List.prefix_append _ _
    · rw [dropPrefix_isSome]
      intro h
      exact hne (List.prefix_nil.1 (prefix_blank (a := []) hb h))
  | c :: a, h => by
    rw [List.cons_append, find, if_neg, find_first hb hne fun g => h (g.trans (List.suffix_cons c a).isInfix)]
    · rfl
    · rw [dropPrefix_isSome]
      intro g
      exact h (prefix_blank (a := c :: a) hb g).isInfix

theorem requestedName_eq {c s : Str} (h : InSubroutine c s) : requestedName (some c) = escape s := by
  obtain ⟨pre, rfl, hp⟩ := h
  have hk : ∀ c ∈ "SUBROUTINE".toList, c ∉ special := by decide +kernel
  have hb : ' ' ∉ "SUBROUTINE".toList := by decide +kernel
  have hne : "SUBROUTINE".toList ≠ [] := by decide +kernel
  have e : escape (pre ++ [' '] ++ "SUBROUTINE".toList ++ [' '] ++ s) = escape pre ++ ' ' :: ("SUBROUTINE".toList ++ ' ' :: escape s) := by
    rw [escape_append, escape_append, escape_append, escape_append, show escape [' '] = [' '] by decide,
      show escape "SUBROUTINE".toList = "SUBROUTINE".toList by decide +kernel]
    simp only [List.append_assoc, List.cons_append, List.nil_append]
  have hf := find_first (r := ' ' :: escape s) hb hne (a := escape pre) fun h => hp (infix_escape hk hne (by rwa [escape_eq] at h))
  simp only [requestedName, e, hf]
  have : escape pre ++ ' ' :: ("SUBROUTINE".toList ++ ' ' :: escape s) = (escape pre ++ [' '] ++ "SUBROUTINE".toList ++ [' ']) ++ escape s := by
    simp only [List.append_assoc, List.cons_append, List.nil_append]
  rw [this]
  have hl : "SUBROUTINE".toList.length = 10 := by decide +kernel
  exact List.drop_left' (by simp only [List.length_append, List.length_cons, List.length_nil, hl])

/-- The list of requests has one entry for each request, which is typeset as the name of its subroutine, if all containers are known and the names
have no special characters other than those that are escaped (missing: `C110_none_violated`). -/
theorem C110_requested_partial {cs : List (Option Str)} {names : List Str} (hl : cs.length = names.length)
    (h : ∀ p ∈ cs.zip names, (∃ c, p.1 = some c ∧ InSubroutine c p.2) ∧ ∀ x ∈ p.2, x ∉ ['\\', '{', '}', '#', '$', '^', '~']) :
    ∃ srcs : List Str, (requested cs).Perm srcs ∧ srcs.length = names.length ∧ ∀ p ∈ srcs.zip names, Typeset p.1 p.2 := by
  refine ⟨cs.map requestedName, List.mergeSort_perm _ _, by rw [List.length_map, hl], ?_⟩
  intro p hp
  rw [List.zip_map_left, List.mem_map] at hp
  obtain ⟨q, hq, rfl⟩ := hp
  obtain ⟨⟨c, hc, hs⟩, hx⟩ := h q hq
  show Typeset (requestedName q.1) q.2
  rw [hc, requestedName_eq hs]
  exact C110_partial hx

/-- A container of a scheme. -/
example : InSubroutine "MODULE a SCHEME b SUBROUTINE b_run".toList "b_run".toList ∧
    requested [some "MODULE a SCHEME b SUBROUTINE b_run".toList] = ["b\\_run".toList] ∧ Typeset "b\\_run".toList "b_run".toList := by
  refine ⟨⟨"MODULE a SCHEME b".toList, by decide +kernel, by decide +kernel⟩, by decide +kernel, ?_⟩
  have := C110_partial (s := "b_run".toList) (by decide +kernel)
  rwa [show escape "b_run".toList = "b\\_run".toList by decide +kernel] at this

/-- A power written with `^` is not escaped: the source is not typeset. -/
theorem C110_special_violated : ∀ t, ¬Typeset (escape "m^2".toList) t := by
  rw [show escape "m^2".toList = ['m', '^', '2'] by decide +kernel]
  intro t h
  cases h with
  | char _ h =>
    cases h with
    | char h => exact absurd (by decide) h

/-- A request without a container gets no entry at all, although `none` is meant. -/
theorem C110_none_violated : requestedName none = [] := by decide +kernel

end Ccpp.LX
