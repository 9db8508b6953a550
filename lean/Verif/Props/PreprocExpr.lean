import Verif.Model.PreprocExpr
/-! # C41, C42, C43: recognition of directives and evaluation of `#if` conditions -/
namespace Ccpp.Preproc

/-! ## C42: boolean combinations of `defined(...)` -/

/-- Specification: a propositional formula over "symbol is defined". -/
inductive BEx where
  | defd (s : Name)
  | ndefd (s : Name)
  | not (e : BEx)
  | conj (a b : BEx) (more : List BEx)
  | disj (a b : BEx) (more : List BEx)

mutual
/-- Ordinary truth value of the formula. -/
def BEx.truth (isDef : Name → Bool) : BEx → Bool
  | .defd s => isDef s
  | .ndefd s => !isDef s
  | .not e => !e.truth isDef
  | .conj a b more => a.truth isDef && (b.truth isDef && BEx.truthAll isDef more)
  | .disj a b more => a.truth isDef || (b.truth isDef || BEx.truthAny isDef more)
def BEx.truthAll (isDef : Name → Bool) : List BEx → Bool
  | [] => true
  | e :: es => e.truth isDef && BEx.truthAll isDef es
def BEx.truthAny (isDef : Name → Bool) : List BEx → Bool
  | [] => false
  | e :: es => e.truth isDef || BEx.truthAny isDef es
end

mutual
/-- The Python syntax tree of the formula. -/
def BEx.ast : BEx → Ex
  | .defd s => .defd s
  | .ndefd s => .ndefd s
  | .not e => .not e.ast
  | .conj a b more => .boolop true a.ast b.ast (BEx.astList more)
  | .disj a b more => .boolop false a.ast b.ast (BEx.astList more)
def BEx.astList : List BEx → List Ex
  | [] => []
  | e :: es => e.ast :: BEx.astList es
end

/-- Every `&&` and `||` joins exactly two operands (longer chains are parenthesised). -/
def BEx.binary : BEx → Bool
  | .defd _ => true
  | .ndefd _ => true
  | .not e => e.binary
  | .conj a b more => a.binary && b.binary && more.isEmpty
  | .disj a b more => a.binary && b.binary && more.isEmpty

theorem eval_BEx (toInt) (d : VDefs) (e : BEx) (h : e.binary = true) :
    eval toInt d e.ast = .ok (.bool (e.truth fun s => (d.get? s).isSome)) := by
  match e with
  | .defd s => rfl
  | .ndefd s =>
    simp only [BEx.ast, eval, BEx.truth]
    cases d.get? s <;> rfl
  | .not e =>
    simp only [BEx.binary] at h
    simp [BEx.ast, eval, BEx.truth, eval_BEx toInt d e h, preprocBool, Except.map]
  | .conj a b more =>
    simp only [BEx.binary, Bool.and_eq_true, List.isEmpty_iff] at h
    obtain ⟨⟨ha, hb⟩, rfl⟩ := h
    simp only [BEx.ast, eval, BEx.truth, BEx.truthAll, eval_BEx toInt d a ha,
      eval_BEx toInt d b hb, preprocBool, Except.map]
    cases a.truth _ <;> cases b.truth _ <;> rfl
  | .disj a b more =>
    simp only [BEx.binary, Bool.and_eq_true, List.isEmpty_iff] at h
    obtain ⟨⟨ha, hb⟩, rfl⟩ := h
    simp only [BEx.ast, eval, BEx.truth, BEx.truthAny, eval_BEx toInt d a ha,
      eval_BEx toInt d b hb, preprocBool, Except.map]
    cases a.truth _ <;> cases b.truth _ <;> rfl

/-- **C42** (partial: formulas whose `&&`/`||` are binary; `C42_violated` shows the
statement is false for three operands).  The truth value used for a condition built
from `defined(..)`, `!`, `&&`, `||` is its propositional truth value. -/
theorem C42_condition_truth_partial (toInt : List Char → Option Int) (d : VDefs) (e : BEx)
    (h : e.binary = true) :
    condValue toInt d e.ast = .ok (e.truth fun s => (d.get? s).isSome) := by
  simp [condValue, eval_BEx toInt d e h, preprocBool]

example : (BEx.conj (.defd ['A']) (.disj (.ndefd ['B']) (.not (.defd ['C'])) []) []).binary
    = true := by decide

/-- **C42 is violated**: `defined(A) && defined(B) && defined(C)` is true although `C`
is not defined. -/
theorem C42_violated (toInt : List Char → Option Int) :
    ∃ (d : VDefs) (e : BEx),
      condValue toInt d e.ast ≠ .ok (e.truth fun s => (d.get? s).isSome) := by
  refine ⟨[(['A'], none), (['B'], none)],
    .conj (.defd ['A']) (.defd ['B']) [.defd ['C']], ?_⟩
  have h : condValue toInt [(['A'], none), (['B'], none)]
      (BEx.conj (.defd ['A']) (.defd ['B']) [.defd ['C']]).ast = .ok true := by rfl
  have h2 : (BEx.conj (.defd ['A']) (.defd ['B']) [.defd ['C']]).truth
      (fun s => (VDefs.get? [(['A'], none), (['B'], none)] s).isSome) = false := by rfl
  rw [h, h2]
  simp

/-! ## C41: comparing a definition with a number -/

/-- **C41** (partial: ordering comparisons).  If `name` is defined as the text `v` and
`v` denotes the integer `m`, then `#if name OP n` for `OP` in `<,<=,>,>=` has the truth
value of `m OP n`.  The full property also covers `==` and `!=`, see `C41_eq_violated`. -/
theorem C41_order_partial (toInt : List Char → Option Int) (d : VDefs) (k : Name)
    (v : List Char) (m n : Int) (hd : d.get? k = some (some v)) (hv : toInt v = some m) :
    condValue toInt d (.cmp (.name k) [(.lt, .num n)]) = .ok (decide (m < n)) ∧
    condValue toInt d (.cmp (.name k) [(.le, .num n)]) = .ok (decide (m ≤ n)) ∧
    condValue toInt d (.cmp (.name k) [(.gt, .num n)]) = .ok (decide (m > n)) ∧
    condValue toInt d (.cmp (.name k) [(.ge, .num n)]) = .ok (decide (m ≥ n)) := by
  simp [condValue, eval, evalCmp, hd, cmp1, pyInt, hv, Except.map, preprocBool]

example : VDefs.get? [(['N'], some ['3'])] ['N'] = some (some ['3']) := by decide

/-- **C41 is violated for `==`**, for every definition with a value and every number:
`#if NAME == n` is always false and `#if NAME != n` always true, because the value is a
string and the literal an integer. -/
theorem C41_eq_violated (toInt : List Char → Option Int) (d : VDefs) (k : Name)
    (v : List Char) (n : Int) (hd : d.get? k = some (some v)) :
    condValue toInt d (.cmp (.name k) [(.eq, .num n)]) = .ok false ∧
    condValue toInt d (.cmp (.name k) [(.ne, .num n)]) = .ok true := by
  simp [condValue, eval, evalCmp, hd, cmp1, pyEq, Except.map, preprocBool]

/-- A symbol defined without a value makes `#if NAME` fail with a TypeError. -/
theorem C41_valueless_symbol_crashes (toInt : List Char → Option Int) (d : VDefs) (k : Name)
    (hd : d.get? k = some none) : condValue toInt d (.name k) = .error .typeErr := by
  simp [condValue, eval, hd, preprocBool, pyInt]

/-- **C41 is violated for undefined symbols**: `#if NAME` with NAME undefined selects its branch (the
C preprocessor replaces an undefined symbol by 0), and so does `#if NAME == NAME2` only for the same
name: the value is the text of the symbol. -/
theorem C41_undefined_violated (toInt : List Char → Option Int) (d : VDefs) (k k2 : Name)
    (hd : d.get? k = none) (hd2 : d.get? k2 = none) (hi : toInt k = none) (h0 : k ≠ ['0']) (n : Int) :
    condValue toInt d (.name k) = .ok true ∧
    condValue toInt d (.cmp (.name k) [(.eq, .num n)]) = .ok false ∧
    condValue toInt d (.cmp (.name k) [(.eq, .name k2)]) = .ok (decide (k = k2)) := by
  refine ⟨?_, ?_, ?_⟩
  · simp [condValue, eval, hd, preprocBool, pyInt, hi, h0]
  · simp [condValue, eval, evalCmp, hd, cmp1, pyEq, Except.map, preprocBool]
  · simp only [condValue, eval, evalCmp, hd, hd2, cmp1, pyEq, Except.map, preprocBool, Bool.true_and]
    by_cases h : k = k2 <;> simp [h]

example : condValue (fun _ => none) [] (.name "FOO".toList) = .ok true :=
  (C41_undefined_violated (fun _ => none) [] "FOO".toList "BAR".toList rfl rfl rfl (by decide) 0).1

/-! ## C43: directives are recognised -/

theorem takeWhile_append_stop (p : Char → Bool) (a : List Char) (c : Char) (b : List Char)
    (ha : ∀ x ∈ a, p x = true) (hc : p c = false) :
    (a ++ c :: b).takeWhile p = a ∧ (a ++ c :: b).dropWhile p = c :: b := by
  induction a with
  | nil => simp [hc]
  | cons x a ih =>
    have hx := ha x (by simp)
    have := ih (fun y hy => ha y (by simp [hy]))
    simp [hx, this]

theorem wordC_not_ws {c : Char} (h : isWordC c = true) : isWs c = false := by
  unfold isWs
  simp only [Bool.or_eq_false_iff, beq_eq_false_iff_ne]
  refine ⟨⟨⟨⟨⟨?_, ?_⟩, ?_⟩, ?_⟩, ?_⟩, ?_⟩ <;> (rintro rfl; revert h; decide)

theorem dropWhile_ws_word (k r : List Char) (hne : k ≠ []) (hk : ∀ c ∈ k, isWordC c = true) :
    (k ++ r).dropWhile isWs = k ++ r := by
  cases k with
  | nil => exact absurd rfl hne
  | cons a k => simp [wordC_not_ws (hk a (by simp))]

/-- **C43** (partial, `#define` with a value).  `#define NAME VALUE` is recognised, for
every name and every value without white space. -/
theorem C43_define_partial (k v : List Char) (hne : k ≠ []) (hk : ∀ c ∈ k, isWordC c = true)
    (hv0 : v ≠ []) (hv : ∀ c ∈ v, isWs c = false) :
    classify ("#define ".toList ++ k ++ ' ' :: v) = .define k v := by
  have e1 : ∀ s : List Char, ("#define ".toList ++ s)
      = '#' :: ("define".toList ++ ' ' :: s) := by intro s; rfl
  have h1 : ∀ s : List Char, ("define".toList ++ ' ' :: s).dropWhile isWs
      = "define".toList ++ ' ' :: s := by intro s; rfl
  have hw : ws1 (' ' :: (k ++ ' ' :: v)) = some (k ++ ' ' :: v) := by
    simp only [ws1]
    rw [dropWhile_ws_word k _ hne hk]
    rfl
  have ht := takeWhile_append_stop isWordC k ' ' v hk (by decide)
  have hv1 : ws1 (' ' :: v) = some v := by
    simp only [ws1]
    cases v with
    | nil => exact absurd rfl hv0
    | cons a v => simp [hv a (by simp)]; decide
  have hvt : v.takeWhile (fun c => !isWs c) = v := by
    clear hv0 hv1 hw ht
    induction v with
    | nil => rfl
    | cons a v ih =>
      have := hv a (by simp)
      simp only [List.takeWhile_cons, this, Bool.not_false, if_true, List.cons.injEq, true_and]
      exact ih (fun x hx => hv x (by simp [hx]))
  rw [List.append_assoc, e1]
  unfold classify
  simp only [h1]
  have n1 : ∀ s, dropPrefix? "ifdef".toList ("define".toList ++ ' ' :: s) = none := by
    intro s; rfl
  have n2 : ∀ s, dropPrefix? "ifndef".toList ("define".toList ++ ' ' :: s) = none := by
    intro s; rfl
  have n3 : ∀ s, dropPrefix? "if".toList ("define".toList ++ ' ' :: s) = none := by
    intro s; rfl
  have n4 : ∀ s, dropPrefix? "elif".toList ("define".toList ++ ' ' :: s) = none := by
    intro s; rfl
  have n5 : ∀ s, dropPrefix? "else".toList ("define".toList ++ ' ' :: s) = none := by
    intro s; rfl
  have n6 : ∀ s, dropPrefix? "endif".toList ("define".toList ++ ' ' :: s) = none := by
    intro s; rfl
  simp only [n1, n2, n3, n4, n5, n6, dropPrefix?_append, Option.bind_none, Option.bind_some,
    hw, ht.1, ht.2, hv1, hvt, hne, if_false]

example : classify "#define FOO 3".toList = .define "FOO".toList "3".toList := by decide

/-- **C43 is violated**: `#define FOO` (no value) is not recognised, `#elif(X)` is silently
ignored, and `#if(X)` is recognised but its condition is not (it counts as false). -/
theorem C43_violated :
    classify "#define FOO".toList = .other ∧
    classify "#elif(X)".toList = .other ∧
    classify "#if(X)".toList = .ifc none := by
  refine ⟨?_, ?_, ?_⟩ <;> decide

end Ccpp.Preproc
