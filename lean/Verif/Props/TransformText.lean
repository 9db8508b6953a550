import Verif.Spec.TransformText
import Verif.Props.VarRef
/-!
# C93: the statement that converts a variable
-/
namespace Ccpp.TText

/-! ## What the object holds -/

theorem compat_facts {spec conv v1 v2 w} (h : VC.compat spec conv v1 v2 false = .ok w) (hc : w.compat = true) :
    v1.type = v2.type ∧
    w.kindT = (if v1.type == "character".toList || v1.kind == v2.kind then none
      else VC.kindConv spec v1.kind v2.kind) ∧
    ((VC.normUnits v1.units = VC.normUnits v2.units ∧ w.unitT = none) ∨
      ∃ p, conv (VC.normUnits v1.units) (VC.normUnits v2.units) = .ok p ∧ w.unitT = some p) := by
  unfold VC.compat at h
  simp only [Bool.false_and, Bool.not_false, Bool.true_and, Bool.false_or, bind, Except.bind, pure, Except.pure] at h
  split at h
  · injection h with h; subst h; cases hc
  rename_i hbad
  split at h
  · injection h with h; subst h; cases hc
  simp only [Bool.false_eq_true, if_false] at h
  have hty : v1.type = v2.type := by
    simp only [Bool.or_eq_true, bne_iff_ne, ne_eq, not_or, not_not] at hbad
    exact hbad.2
  refine ⟨hty, ?_⟩
  by_cases hu : VC.normUnits v1.units = VC.normUnits v2.units
  · simp only [hu, beq_self_eq_true, if_true] at h
    split at h
    · injection h with h; subst h; exact ⟨rfl, .inl ⟨hu, rfl⟩⟩
    · split at h
      · cases h
      · injection h with h; subst h; exact ⟨rfl, .inl ⟨hu, rfl⟩⟩
  · rw [if_neg (by simpa using hu)] at h
    cases hcv : conv (VC.normUnits v1.units) (VC.normUnits v2.units) with
    | error e => rw [hcv] at h; cases h
    | ok p =>
      rw [hcv] at h
      simp only [Except.map] at h
      split at h
      · injection h with h; subst h; exact ⟨rfl, .inr ⟨p, rfl, rfl⟩⟩
      · split at h
        · cases h
        · injection h with h; subst h; exact ⟨rfl, .inr ⟨p, rfl, rfl⟩⟩

/-! ## Templates -/

theorem format_plain (v k : Str) : ∀ (l s : Str), '{' ∉ l → format v k (l ++ s) = l ++ format v k s
  | [], _, _ => rfl
  | c :: l, s, h => by
    have hc : c ≠ '{' := fun e => h (by rw [e]; exact List.mem_cons_self ..)
    have ih := format_plain v k l s fun hm => h (List.mem_cons_of_mem _ hm)
    rw [List.cons_append, List.cons_append, ← ih]
    conv => lhs; unfold format
    split
    · rename_i e; cases e
    · rename_i e; injection e with e _; exact absurd e hc
    · rename_i e; injection e with e _; exact absurd e hc
    · rename_i e; injection e with e1 e2; subst e1; subst e2; rfl

theorem format_var (v k s : Str) : format v k ("{var}".toList ++ s) = v ++ format v k s := rfl
theorem format_kind (v k s : Str) : format v k ("{kind}".toList ++ s) = k ++ format v k s := rfl

/-- The parts of a template: does the literal come first, the operator, the literal. -/
def shapeOf (f : Str) : Option (Bool × Char × Str) :=
  match Units.dropSuffix? "{kind}*{var}".toList f with
  | some l => some (true, '*', l)
  | none =>
    match dropPrefix? "{var}".toList f with
    | some (op :: t) => (Units.dropSuffix? "{kind}".toList t).map fun l => (false, op, l)
    | _ => none

def shapeText : Bool × Char × Str → Str
  | (true, op, l) => l ++ "{kind}".toList ++ [op] ++ "{var}".toList
  | (false, op, l) => "{var}".toList ++ [op] ++ l ++ "{kind}".toList

/-- The coefficients a template stands for. -/
def shapeMeans : Bool × Char × Str → Option (Rat × Rat)
  | (true, op, l) => if op = '*' then (Units.literal l).map fun q => (q, 0) else none
  | (false, op, l) =>
    match Units.literal l with
    | none => none
    | some q => if op = '/' then (if q = 0 then none else some (1 / q, 0)) else if op = '+' then some (1, q)
      else if op = '-' then some (1, -q) else none

def entryShape (p : Str × Str) : Bool :=
  match shapeOf p.2 with
  | some s => shapeText s == p.2 && !s.2.2.contains '{' && s.2.1 != '{' && Units.formula p.2 == shapeMeans s
  | none => false

theorem table_shape : Units.table.all entryShape = true := by decide +kernel

/-- A template as an expression over `e`, with the literal of kind `k`. -/
def shapeExpr (e : Expr) (k : Str) : Bool × Char × Str → Expr
  | (true, op, l) => .bin op (.lit l k) e
  | (false, op, l) => .bin op e (.lit l k)

theorem shape_format (e : Expr) (k : Str) (s : Bool × Char × Str) (h1 : '{' ∉ s.2.2) (h2 : s.2.1 ≠ '{') :
    format e.text (if k = [] then [] else '_' :: k) (shapeText s) = (shapeExpr e k s).text := by
  obtain ⟨b, op, l⟩ := s
  have hop : '{' ∉ [op] := by simpa using fun e => h2 e.symm
  cases b with
  | true =>
    show format _ _ (l ++ "{kind}".toList ++ [op] ++ "{var}".toList) = (l ++ _) ++ [op] ++ e.text
    rw [List.append_assoc, List.append_assoc, format_plain _ _ _ _ h1, format_kind, format_plain _ _ _ _ hop,
      ← List.append_nil "{var}".toList, format_var]
    show l ++ (_ ++ ([op] ++ (e.text ++ []))) = _
    rw [List.append_nil, List.append_assoc, List.append_assoc]
  | false =>
    show format _ _ ("{var}".toList ++ [op] ++ l ++ "{kind}".toList) = e.text ++ [op] ++ (l ++ _)
    rw [List.append_assoc, List.append_assoc, format_var, format_plain _ _ _ _ hop, format_plain _ _ _ _ h1,
      ← List.append_nil "{kind}".toList, format_kind]
    show e.text ++ ([op] ++ (l ++ (_ ++ []))) = _
    rw [List.append_nil, List.append_assoc]

theorem shape_value {e : Expr} (k : Str) {s : Bool × Char × Str} {p q x x' : Rat} (hm : shapeMeans s = some (p, q))
    (hx : e.value x = some x') : (shapeExpr e k s).value x = some (p * x' + q) := by
  obtain ⟨b, op, l⟩ := s
  cases b with
  | true =>
    unfold shapeMeans at hm
    simp only at hm
    split at hm
    · rename_i hop
      rw [Option.map_eq_some_iff] at hm
      obtain ⟨a, ha, hpq⟩ := hm
      injection hpq with e1 e2
      subst e1; subst e2
      simp [shapeExpr, Expr.value, hx, ha, hop]
    · cases hm
  | false =>
    unfold shapeMeans at hm
    simp only at hm
    cases ha : Units.literal l with
    | none => rw [ha] at hm; cases hm
    | some a =>
      rw [ha] at hm
      simp only at hm
      split at hm
      · rename_i hop
        split at hm
        · cases hm
        · rename_i h0
          injection hm with hm; injection hm with e1 e2; subst e1; subst e2
          subst hop
          simp [shapeExpr, Expr.value, hx, ha, h0, div_eq_mul_inv, mul_comm]
      · split at hm
        · rename_i hop
          injection hm with hm; injection hm with e1 e2; subst e1; subst e2
          subst hop
          simp [shapeExpr, Expr.value, hx, ha]
        · split at hm
          · rename_i hop
            injection hm with hm; injection hm with e1 e2; subst e1; subst e2
            subst hop
            simp [shapeExpr, Expr.value, hx, ha, sub_eq_add_neg]
          · cases hm

theorem shape_kind {same : Str → Str → Prop} {kv k k' : Str} {e : Expr} (s : Bool × Char × Str)
    (he : e.HasKind same kv k) (hk : same k' k) : (shapeExpr e k' s).HasKind same kv k := by
  obtain ⟨b, op, l⟩ := s
  cases b with
  | true => exact ⟨hk, he⟩
  | false => exact ⟨he, hk⟩

theorem shape_refs (e : Expr) (k : Str) (s : Bool × Char × Str) : (shapeExpr e k s).refs = e.refs := by
  obtain ⟨b, op, l⟩ := s
  cases b with
  | true => rfl
  | false => show e.refs ++ [] = e.refs; rw [List.append_nil]

/-! ## Statements -/

theorem joinComma_eq : ∀ l, joinComma l = VRef.sepBy ",".toList l
  | [] => rfl
  | [_] => rfl
  | t :: u :: ts => by
    show t ++ ",".toList ++ joinComma (u :: ts) = t ++ ",".toList ++ VRef.sepBy ",".toList (u :: ts)
    rw [joinComma_eq (u :: ts)]

theorem term_text (name : Str) (idx : List Str) (ridx : List Str) (h : ridx.length = idx.length) :
    (if ridx.length = 0 then name else indexed name idx) = refText name idx := by
  unfold refText indexed
  by_cases hi : idx = []
  · rw [if_pos hi, if_pos (by rw [h, hi]; rfl)]
  · rw [if_neg hi, if_neg (by rw [h]; simpa using hi), joinComma_eq]

/-- The right-hand side before the unit conversion. -/
def baseExpr (rname : Str) (ridx : List Str) : Option Str → Expr
  | some k => .real (.ref rname ridx) k
  | none => .ref rname ridx

/-- The statement in one direction: `kt` is the kind it converts to, `kd` the kind of the result, `ut` the template. -/
def stmt (kt : Option Str) (kd : Option Str) (ut : Option Str) (lname rname : Str) (ridx lidx : List Str) : Str :=
  let rhs := if ridx.length = 0 then rname else indexed rname ridx
  let lhs := if ridx.length = 0 then lname else indexed lname lidx
  let kr : Str × Str := match kt with
    | some k => (k, "real(".toList ++ rhs ++ ", ".toList ++ k ++ ")".toList)
    | none => ([], rhs)
  let rhs := match ut with
    | some t =>
      let kind := if !kr.1.isEmpty then "_".toList ++ kr.1
        else if !(textOr kd).isEmpty then "_".toList ++ textOr kd else kr.1
      format kr.2 kind t
    | none => kr.2
  lhs ++ " = ".toList ++ rhs

theorem forward_eq (o : Obj) (lname rname : Str) (ridx lidx : List Str) :
    forward o lname rname ridx lidx =
      stmt (o.kindT.map (·.2)) o.v2Kind (o.unitT.map (·.1)) lname rname ridx lidx := by
  unfold forward stmt
  cases o.kindT <;> cases o.unitT <;> rfl

theorem reverse_eq (o : Obj) (lname rname : Str) (ridx lidx : List Str) :
    reverse o lname rname ridx lidx =
      stmt (o.kindT.map (·.1)) o.v1Kind (o.unitT.map (·.2)) lname rname ridx lidx := by
  unfold reverse stmt
  cases o.kindT <;> cases o.unitT <;> rfl

theorem base_text (rname : Str) (ridx : List Str) (kt : Option Str) :
    (match kt with
      | some k => "real(".toList ++ refText rname ridx ++ ", ".toList ++ k ++ ")".toList
      | none => refText rname ridx) = (baseExpr rname ridx kt).text := by
  cases kt <;> rfl

theorem stmt_converts {same : Str → Str → Prop} {kv kd : Str} {kt ut : Option Str} {lname rname : Str}
    {ridx lidx : List Str} {f : Rat → Rat → Prop} (hl : ridx.length = lidx.length) (hd : kd ≠ [])
    (hkt : match kt with | some k => k = kd | none => same kv kd) (hrefl : same kd kd)
    (hut : match ut with
      | none => ∀ x, f x x
      | some t => (∃ n, (n, t) ∈ Units.table) ∧ ∀ x, ∃ y, Units.apply t x = some y ∧ f x y) :
    Converts same lname lidx rname ridx kv kd f (stmt kt (some kd) ut lname rname ridx lidx) := by
  have hk1 : (baseExpr rname ridx kt).HasKind same kv kd := by
    cases kt with
    | none => exact hkt
    | some k => have hkt : k = kd := hkt; subst hkt; exact ⟨hd, hrefl⟩
  have hv : ∀ x, (baseExpr rname ridx kt).value x = some x := by intro x; cases kt <;> rfl
  have hr : (baseExpr rname ridx kt).refs = [(rname, ridx)] := by cases kt <;> rfl
  cases ut with
  | none =>
    refine ⟨baseExpr rname ridx kt, ?_, hr, hk1, fun x => ⟨x, hv x, hut x⟩⟩
    unfold stmt
    rw [term_text lname lidx ridx hl, term_text rname ridx ridx rfl]
    cases kt <;> rfl
  | some t =>
    obtain ⟨⟨n, hn⟩, hut⟩ := hut
    have hsh := List.all_eq_true.1 table_shape _ hn
    unfold entryShape at hsh
    cases hs : shapeOf t with
    | none => simp only [hs] at hsh; cases hsh
    | some s =>
      simp only [hs, Bool.and_eq_true, beq_iff_eq, Bool.not_eq_true', bne_iff_ne, ne_eq] at hsh
      obtain ⟨⟨⟨s1, s2⟩, s3⟩, s4⟩ := hsh
      have s2 : '{' ∉ s.2.2 := by
        intro h
        rw [List.contains_iff_mem.2 h] at s2; cases s2
      refine ⟨shapeExpr (baseExpr rname ridx kt) kd s, ?_, (shape_refs _ _ _).trans hr, shape_kind s hk1 hrefl, ?_⟩
      · rw [← shape_format _ kd s s2 s3, s1, if_neg hd]
        unfold stmt
        rw [term_text lname lidx ridx hl, term_text rname ridx ridx rfl]
        have he : (textOr (some kd)).isEmpty = false := by
          cases kd with
          | nil => exact absurd rfl hd
          | cons => rfl
        cases kt with
        | none =>
          simp only [List.isEmpty_nil, Bool.not_true, Bool.false_eq_true, if_false, he, Bool.not_false, if_true]
          rfl
        | some k =>
          have hkt : k = kd := hkt
          subst hkt
          have he' : k.isEmpty = false := he
          simp only [he', Bool.not_false, if_true]
          rfl
      · intro x
        obtain ⟨y, hy, hf⟩ := hut x
        unfold Units.apply at hy
        rw [Option.map_eq_some_iff] at hy
        obtain ⟨⟨p, q⟩, hp, rfl⟩ := hy
        exact ⟨_, shape_value kd (s4.symm.trans hp) (hv x), hf⟩

/-! ## Units -/

theorem norm_ne {u : Str} (h : lower u ≠ "none".toList) : VC.normUnits u = u := by
  unfold VC.normUnits; rw [if_neg h]

theorem standsFor_norm {u : Str} {w : Str × Units.Meaning} (h : Units.StandsFor (VC.normUnits u) w) :
    Units.StandsFor u w := by
  by_cases hn : lower u = "none".toList
  · exfalso
    unfold VC.normUnits at h
    rw [if_pos hn] at h
    have hall : (Units.units.all fun w => Units.mangle "none".toList != Units.mangle w.1) = true := by decide +kernel
    have := List.all_eq_true.1 hall w h.1
    rw [bne_iff_ne] at this
    exact this h.2
  · rwa [norm_ne hn] at h

theorem same_norm {u1 u2 : Str} (h : VC.normUnits u1 = VC.normUnits u2) (x : Rat) : SameQuantity u1 u2 x x := by
  refine .inl ⟨?_, rfl⟩
  by_cases h1 : lower u1 = "none".toList
  · by_cases h2 : lower u2 = "none".toList
    · exact .inr ⟨h1, h2⟩
    · exfalso
      rw [norm_ne h2] at h
      unfold VC.normUnits at h
      rw [if_pos h1] at h
      exact h2 (by rw [← h]; decide)
  · by_cases h2 : lower u2 = "none".toList
    · exfalso
      rw [norm_ne h1] at h
      unfold VC.normUnits at h
      rw [if_pos h2] at h
      exact h1 (by rw [h]; decide)
    · rw [norm_ne h1, norm_ne h2] at h
      exact .inl h

theorem conv_table {u1 u2 : Str} {p : Str × Str}
    (h : Units.convStrs (VC.normUnits u1) (VC.normUnits u2) = .ok p) :
    (∃ n, (n, p.1) ∈ Units.table) ∧ ∀ x, ∃ y, Units.apply p.1 x = some y ∧ SameQuantity u1 u2 x y := by
  have h0 : Units.convStrs (VC.normUnits u1) (VC.normUnits u2) = .ok (p.1, p.2) := h
  refine ⟨⟨_, Units.lookup_mem (Units.convStrs_ok h0).1⟩, fun x => ?_⟩
  obtain ⟨w1, w2, s1, s2, hd, hy⟩ := Units.conversion_correct h0
  obtain ⟨y, h1, h2, -⟩ := hy x
  exact ⟨y, h1, .inr ⟨w1, w2, standsFor_norm s1, standsFor_norm s2, hd, h2⟩⟩

/-! ## The theorems -/

theorem kindConv_none {spec : Option Str → Option Str} {k1 k2 : Str}
    (h : VC.kindConv spec (some k1) (some k2) = none) : SameKind spec k1 k2 := by
  unfold VC.kindConv at h
  unfold SameKind
  cases h1 : spec (some k1) <;> cases h2 : spec (some k2) <;> rw [h1, h2] at h <;> simpa using h

theorem kindConv_some {spec : Option Str → Option Str} {k1 k2 : Option Str} {p}
    (h : VC.kindConv spec k1 k2 = some p) : p = (k1, k2) := by
  unfold VC.kindConv at h
  cases h1 : spec k1 <;> cases h2 : spec k2 <;> rw [h1, h2] at h <;> simp only at h <;> split at h <;>
    first | (injection h with h; exact h.symm) | cases h

theorem obj_facts {spec : Option Str → Option Str} {v1 v2 : VC.V} {o : Obj} {k1 k2 : Str}
    (ho : mkObj spec v1 v2 = some o) (ht : v1.type = "real".toList) (h1 : v1.kind = some k1) (h2 : v2.kind = some k2) :
    o.v1Kind = some k1 ∧ o.v2Kind = some k2 ∧
    ((o.kindT = none ∧ SameKind spec k1 k2) ∨ o.kindT = some (k1, k2)) ∧
    ((o.unitT = none ∧ VC.normUnits v1.units = VC.normUnits v2.units) ∨
      ∃ p, o.unitT = some p ∧ Units.convStrs (VC.normUnits v1.units) (VC.normUnits v2.units) = .ok p) := by
  unfold mkObj at ho
  cases hc : VC.compat spec Units.convStrs v1 v2 false with
  | error e => rw [hc] at ho; cases ho
  | ok w =>
    rw [hc] at ho
    simp only at ho
    split at ho
    · rename_i hw
      have hchar : (v1.type == "character".toList) = false := by rw [ht]; decide
      rw [hchar] at ho
      injection ho with ho
      obtain ⟨-, hk, hu⟩ := compat_facts hc hw
      rw [hchar] at hk
      subst ho
      refine ⟨h1, h2, ?_, ?_⟩
      · show (kindTexts w.kindT = none ∧ _) ∨ kindTexts w.kindT = _
        rw [h1, h2] at hk
        by_cases he : k1 = k2
        · left
          rw [hk, he]
          simp [kindTexts, SameKind]
        · have hne : ((some k1 : Option Str) == some k2) = false := by simpa using he
          rw [hne] at hk
          simp only [Bool.or_self, Bool.false_eq_true, if_false] at hk
          cases hkc : VC.kindConv spec (some k1) (some k2) with
          | none => left; rw [hk, hkc]; exact ⟨rfl, kindConv_none hkc⟩
          | some p => right; rw [hk, hkc, kindConv_some hkc]; rfl
      · rcases hu with ⟨a, b⟩ | ⟨p, a, b⟩
        · exact .inl ⟨b, a⟩
        · exact .inr ⟨p, b, a⟩
    · cases ho

/-- C93, after a scheme: for all compatible real variables with kinds, names and subscripts, the forward statement is
an assignment to the second variable of a value computed from the first one only, of the kind of the second variable
without mixing kinds, and the value is the same quantity in the units of the second variable. -/
theorem C93_forward_partial (spec : Option Str → Option Str) (v1 v2 : VC.V) (o : Obj) (k1 k2 : Str)
    (lname rname : Str) (ridx lidx : List Str)
    (ho : mkObj spec v1 v2 = some o) (ht : v1.type = "real".toList) (h1 : v1.kind = some k1) (h2 : v2.kind = some k2)
    (hk : k2 ≠ []) (hl : ridx.length = lidx.length) :
    Converts (SameKind spec) lname lidx rname ridx k1 k2 (SameQuantity v1.units v2.units)
      (forward o lname rname ridx lidx) := by
  obtain ⟨-, f2, f3, f4⟩ := obj_facts ho ht h1 h2
  rw [forward_eq, f2]
  refine stmt_converts hl hk ?_ (show SameKind spec _ _ from rfl) ?_
  · rcases f3 with ⟨e, hs⟩ | e
    · rw [e]; exact hs
    · rw [e]; rfl
  · rcases f4 with ⟨e, hu⟩ | ⟨p, e, hu⟩
    · rw [e]; exact fun x => same_norm hu x
    · rw [e]; exact conv_table hu

/-- C93, before a scheme: the reverse statement likewise assigns the value of the second variable to the first. -/
theorem C93_reverse_partial (spec : Option Str → Option Str) (v1 v2 : VC.V) (o : Obj) (k1 k2 : Str)
    (lname rname : Str) (ridx lidx : List Str)
    (ho : mkObj spec v1 v2 = some o) (ht : v1.type = "real".toList) (h1 : v1.kind = some k1) (h2 : v2.kind = some k2)
    (hk : k1 ≠ []) (hl : ridx.length = lidx.length) :
    Converts (SameKind spec) lname lidx rname ridx k2 k1 (SameQuantity v2.units v1.units)
      (reverse o lname rname ridx lidx) := by
  obtain ⟨f1, -, f3, f4⟩ := obj_facts ho ht h1 h2
  rw [reverse_eq, f1]
  refine stmt_converts hl hk ?_ (show SameKind spec _ _ from rfl) ?_
  · rcases f3 with ⟨e, hs⟩ | e
    · rw [e]; exact hs.symm
    · rw [e]; rfl
  · rcases f4 with ⟨e, hu⟩ | ⟨p, e, hu⟩
    · rw [e]; exact fun x => same_norm hu.symm x
    · rw [e]
      have hp : Units.convStrs (VC.normUnits v1.units) (VC.normUnits v2.units) = .ok (p.1, p.2) := hu
      have hr := (Units.conversion_symmetric _ _ _ _).1 hp
      exact conv_table (p := (p.2, p.1)) hr

/-! ## Quantities -/

theorem replaceChar_id {c : Char} {t s : Str} (h : c ∉ s) : Units.replaceChar c t s = s := by
  unfold Units.replaceChar
  induction s with
  | nil => rfl
  | cons d s ih =>
    rw [List.flatMap_cons, ih fun hm => h (List.mem_cons_of_mem _ hm),
      if_neg fun (e : d = c) => h (by rw [e]; exact List.mem_cons_self ..)]
    rfl

theorem none_unit {u : Str} {w : Str × Units.Meaning} (h : lower u = "none".toList) : ¬Units.StandsFor u w := by
  rintro ⟨hw, hm⟩
  have hnot : ∀ c : Char, c.toLower ∉ "none".toList → c ∉ u := by
    intro c hc hu
    exact hc (by rw [← h]; exact List.mem_map.2 ⟨c, hu, rfl⟩)
  have hu : Units.mangle u = u := by
    unfold Units.mangle
    rw [replaceChar_id (hnot ' ' (by decide)), replaceChar_id (hnot '-' (by decide)),
      replaceChar_id (hnot '+' (by decide))]
    simp only
    rw [if_neg]
    rintro rfl
    exact absurd h (by decide)
  have hall : (Units.units.all fun w => lower (Units.mangle w.1) != "none".toList) = true := by decide +kernel
  have := List.all_eq_true.1 hall w hw
  rw [bne_iff_ne, ← hm, hu] at this
  exact this h

/-- The same quantity in the same units is the same value, so the two statements undo each other: whatever values
they compute, going there and back gives the value one started with. -/
theorem C93_undo {u1 u2 : Str} {x y z : Rat} (h1 : SameQuantity u1 u2 x y) (h2 : SameQuantity u2 u1 y z) : z = x := by
  rcases h1 with ⟨hu, rfl⟩ | ⟨w1, w2, a1, a2, hd, hb⟩
  · rcases h2 with ⟨-, rfl⟩ | ⟨w2', w1', b2, b1, -, hb'⟩
    · rfl
    · have : w2' = w1' := by
        rcases hu with rfl | ⟨n1, n2⟩
        · exact Units.mangle_inj b2.1 b1.1 (b2.2.symm.trans b1.2)
        · exact absurd b1 (none_unit n1)
      subst this
      have hs := Units.scale_ne b2.1
      unfold Units.Meaning.base at hb'
      have := add_right_cancel hb'
      exact mul_left_cancel₀ hs this
  · rcases h2 with ⟨hu, rfl⟩ | ⟨w2', w1', b2, b1, -, hb'⟩
    · have : w1 = w2 := by
        rcases hu with rfl | ⟨n2, n1⟩
        · exact Units.mangle_inj a1.1 a2.1 (a1.2.symm.trans a2.2)
        · exact absurd a1 (none_unit n1)
      subst this
      have hs := Units.scale_ne a1.1
      unfold Units.Meaning.base at hb
      exact mul_left_cancel₀ hs (add_right_cancel hb)
    · have e1 : w1' = w1 := Units.mangle_inj b1.1 a1.1 (b1.2.symm.trans a1.2)
      have e2 : w2' = w2 := Units.mangle_inj b2.1 a2.1 (b2.2.symm.trans a2.2)
      subst e1; subst e2
      have hs := Units.scale_ne a1.1
      have hb'' := hb'.trans hb
      unfold Units.Meaning.base at hb''
      exact mul_left_cancel₀ hs (add_right_cancel hb'')

end Ccpp.TText
