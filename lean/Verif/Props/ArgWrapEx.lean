import Verif.Props.ArgWrap
/-!
# Cases for C94
-/
namespace Ccpp.ArgW

/-- Four distinct names of 30 characters. -/
private def names : List Str :=
  ["a", "b", "c", "d"].map fun p => p.toList ++ List.replicate 29 'x'

/-- The hypotheses of C94_limit are met by a list that is really broken over two lines. -/
example : (∀ a ∈ names, Plain a ∧ a.length ≤ 63) ∧ names.Nodup ∧ '\n' ∈ wrapped names ∧
    '\n' ∈ wrappedExplicit names true := by
  unfold Plain
  refine ⟨by decide +kernel, by decide +kernel, by decide +kernel, by decide +kernel⟩

/-- A short list stays on one line. -/
example : wrapped ["im".toList, "levs".toList] = "im,levs".toList ∧
    wrappedExplicit ["im".toList, "levs".toList] true = "im=im,levs=levs,".toList := by decide +kernel

/-- Repeated arguments: a list of `n` times the same name is never broken. -/
theorem loop_same (a : Str) : ∀ (n : Nat) (text : Str) (len : Nat),
    loop plainPiece (fun a => a.length + 1) a (List.replicate n a) text len =
      text ++ (List.replicate n (plainPiece a)).flatten
  | 0, text, len => by simp [loop]
  | n + 1, text, len => by
    rw [List.replicate_succ, loop]
    simp only [beq_self_eq_true, Bool.not_true, Bool.and_false, Bool.false_eq_true, if_false]
    rw [loop_same a n, List.replicate_succ, List.flatten_cons, List.append_assoc]

/-- C94: distinctness is needed; the last argument is recognised by its text, so for every bound there is a list of
equal names whose only line is longer. -/
theorem C94_repeated_violated (n : Nat) : ∃ args : List Str,
    (∀ a ∈ args, Plain a ∧ a.length ≤ 63) ∧ ¬ LinesAtMost n (wrapped args) := by
  refine ⟨List.replicate (n + 1) "a".toList, ?_, ?_⟩
  · intro a ha
    rw [List.eq_of_mem_replicate ha]
    unfold Plain
    decide
  · intro h
    have hw : wrapped (List.replicate (n + 1) "a".toList) =
        (List.replicate n "a,".toList).flatten ++ "a".toList := by
      unfold wrapped
      have hl : (List.replicate (n + 1) "a".toList).getLast?.getD [] = "a".toList := by
        simp [List.getLast?_replicate]
      rw [hl, loop_same, List.nil_append]
      have e1 : (List.replicate (n + 1) (plainPiece "a".toList)).flatten =
          (List.replicate n "a,".toList).flatten ++ "a,".toList := by
        rw [List.replicate_succ', List.flatten_append]
        rfl
      rw [e1]
      have hne : ((List.replicate n "a,".toList).flatten ++ "a,".toList).isEmpty = false := by simp
      simp only [hne, Bool.not_false, if_true]
      unfold rstripComma
      rw [List.reverse_append]
      have : "a,".toList.reverse = [',', 'a'] := by decide
      rw [this]
      simp [List.dropWhile]
    have := h [] (wrapped (List.replicate (n + 1) "a".toList)) [] (by simp) (by
      rw [hw]
      intro hm
      rcases List.mem_append.1 hm with hm | hm
      · obtain ⟨l, hl, hx⟩ := List.mem_flatten.1 hm
        rw [List.eq_of_mem_replicate hl] at hx
        revert hx; decide
      · revert hm; decide)
    rw [hw, List.length_append, List.length_flatten, List.map_replicate, List.sum_replicate_nat] at this
    have e2 : "a,".toList.length = 2 := by decide
    have e1 : "a".toList.length = 1 := by decide
    rw [e2, e1] at this
    omega

end Ccpp.ArgW
