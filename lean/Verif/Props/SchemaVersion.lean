import Verif.Spec.SchemaVersion
import Verif.Props.VarRef
/-!
# C107: the version of an XML file chooses its schema
-/
namespace Ccpp.SV

open Chk (DigitSeq IsInt)

theorem notUnder {c : Char} (h : c.isDigit = true) : c ≠ '_' := by rintro rfl; exact absurd h (by decide)

theorem value_iff {acc : Nat} {s : Str} {n : Nat} : Value acc s n ↔ DigitSeq s ∧ n = val acc s := by
  constructor
  · intro h
    induction h with
    | one h => exact ⟨.one h, by rw [val, if_neg (notUnder h)]; rfl⟩
    | more h _ ih => exact ⟨.more h ih.1, by rw [val, if_neg (notUnder h)]; exact ih.2⟩
    | underscore h _ ih => exact ⟨.underscore h ih.1, by rw [val, if_neg (notUnder h), val, if_pos rfl]; exact ih.2⟩
  · rintro ⟨h, rfl⟩
    induction h generalizing acc with
    | one h => rw [val, if_neg (notUnder h)]; exact .one h
    | more h _ ih => rw [val, if_neg (notUnder h)]; exact .more h ih
    | underscore h _ ih => rw [val, if_neg (notUnder h), val, if_pos rfl]; exact .underscore h ih

theorem digitSeq_dense {s : Str} (h : DigitSeq s) : ∀ c ∈ s, isWs c = false ∧ c ≠ '+' ∧ c ≠ '-' := by
  have dig : ∀ {c : Char}, c.isDigit = true → isWs c = false ∧ c ≠ '+' ∧ c ≠ '-' := by
    intro c hc
    refine ⟨?_, by rintro rfl; exact absurd hc (by decide), by rintro rfl; exact absurd hc (by decide)⟩
    cases h : isWs c with
    | false => rfl
    | true =>
      simp only [isWs, Bool.or_eq_true, beq_iff_eq] at h
      rcases h with ((((rfl | rfl) | rfl) | rfl) | rfl) | rfl <;> exact absurd hc (by decide)
  induction h with
  | one h => intro c hc; rw [List.mem_singleton.1 hc]; exact dig h
  | more h _ ih => intro c hc; rcases List.mem_cons.1 hc with rfl | hc; exact dig h; exact ih c hc
  | underscore h _ ih =>
    intro c hc
    rcases List.mem_cons.1 hc with rfl | hc
    · exact dig h
    · rcases List.mem_cons.1 hc with rfl | hc
      · decide
      · exact ih c hc

theorem int_dense {s : Str} (h : IsInt s) : ∀ c ∈ s, isWs c = false := by
  rcases h with h | ⟨t, rfl | rfl, h⟩
  · exact fun c hc => (digitSeq_dense h c hc).1
  · intro c hc; rcases List.mem_cons.1 hc with rfl | hc; decide; exact (digitSeq_dense h c hc).1
  · intro c hc; rcases List.mem_cons.1 hc with rfl | hc; decide; exact (digitSeq_dense h c hc).1

/-- The value of an integer without blanks. -/
def Signed (t : Str) (k : Int) : Prop :=
  ∃ n : Nat, (Value 0 t n ∧ k = n) ∨ ∃ u, Value 0 u n ∧ ((t = '+' :: u ∧ k = n) ∨ (t = '-' :: u ∧ k = -n))

theorem intVal_digits {t : Str} (h : DigitSeq t) : intVal t = val 0 t := by
  have hd := digitSeq_dense h
  unfold intVal
  split
  · exact absurd rfl (hd '-' (.head _)).2.2
  · exact absurd rfl (hd '+' (.head _)).2.1
  · rfl

theorem signed_iff {t : Str} {k : Int} : Signed t k ↔ IsInt t ∧ k = intVal t := by
  constructor
  · rintro ⟨n, ⟨h, rfl⟩ | ⟨u, h, ⟨rfl, rfl⟩ | ⟨rfl, rfl⟩⟩⟩
    · obtain ⟨g, rfl⟩ := value_iff.1 h
      exact ⟨.inl g, (intVal_digits g).symm⟩
    · obtain ⟨g, rfl⟩ := value_iff.1 h
      exact ⟨.inr ⟨u, .inl rfl, g⟩, rfl⟩
    · obtain ⟨g, rfl⟩ := value_iff.1 h
      exact ⟨.inr ⟨u, .inr rfl, g⟩, rfl⟩
  · rintro ⟨h | ⟨u, rfl | rfl, h⟩, rfl⟩
    · exact ⟨_, .inl ⟨value_iff.2 ⟨h, rfl⟩, intVal_digits h⟩⟩
    · exact ⟨_, .inr ⟨u, value_iff.2 ⟨h, rfl⟩, .inl ⟨rfl, rfl⟩⟩⟩
    · exact ⟨_, .inr ⟨u, value_iff.2 ⟨h, rfl⟩, .inr ⟨rfl, rfl⟩⟩⟩

theorem pyInt_iff {s : Str} {k : Int} : pyInt s = some k ↔ IntText s k := by
  have step : pyInt s = some k ↔ Signed (strip s) k := by
    unfold pyInt
    rw [signed_iff, ← Chk.isPyInt_iff]
    by_cases h : Chk.isPyInt (strip s) = true
    · rw [if_pos h]; simp [h, eq_comm]
    · rw [if_neg h]; simp [h]
  rw [step]
  constructor
  · intro h
    obtain ⟨a, b, ha, hb, e⟩ := FDecl.strip_split s
    exact ⟨a, _, b, ha, hb, e, h⟩
  · rintro ⟨a, t, b, ha, hb, rfl, h⟩
    have hd := int_dense (signed_iff.1 h).1
    have ti : FDecl.Tight t := ⟨fun c hc => hd c (List.mem_of_mem_head? hc), fun c hc => hd c (List.mem_of_mem_getLast? hc)⟩
    rw [FDecl.strip_core ha ti hb]
    exact h

theorem split_two {s x y : Str} : Chk.splitOn '.' s = [x, y] ↔ s = x ++ '.' :: y ∧ '.' ∉ x ∧ '.' ∉ y := by
  constructor
  · intro h
    obtain ⟨_, h2, h3⟩ := VRef.splitOn_facts '.' s
    rw [h] at h2 h3
    refine ⟨?_, h2 x (by simp), h2 y (by simp)⟩
    rw [← h3]
    show x ++ ['.'] ++ y = _
    simp
  · rintro ⟨rfl, hx, hy⟩
    have := VRef.splitOn_sepBy '.' [x, y] (by simp) (by simp [hx, hy])
    rw [← this]
    congr 1
    show _ = x ++ ['.'] ++ y
    simp

/-- The version is accepted, with these numbers, exactly if it is one. -/
theorem C107_version (s : Str) (a b : Int) : version (some s) = .ok (a, b) ↔ IsVersion s a b := by
  have lhs : version (some s) = .ok (a, b) ↔
      ∃ x y, Chk.splitOn '.' s = [x, y] ∧ pyInt x = some a ∧ pyInt y = some b ∧ 0 < a ∧ 0 ≤ b := by
    simp only [version]
    split
    · rename_i x y h
      simp only [h, List.cons.injEq, and_true]
      cases hx : pyInt x with
      | none =>
        simp only [reduceCtorEq, false_iff]
        rintro ⟨x', y', ⟨rfl, rfl⟩, h, _⟩
        rw [hx] at h; cases h
      | some a' =>
        cases hy : pyInt y with
        | none =>
          simp only [reduceCtorEq, false_iff]
          rintro ⟨x', y', ⟨rfl, rfl⟩, _, h, _⟩
          rw [hy] at h; cases h
        | some b' =>
          simp only
          constructor
          · intro h
            split at h
            · cases h
            · split at h
              · cases h
              · cases h
                exact ⟨x, y, ⟨rfl, rfl⟩, hx, hy, by omega, by omega⟩
          · rintro ⟨x', y', ⟨rfl, rfl⟩, h1, h2, h3, h4⟩
            rw [hx] at h1; rw [hy] at h2
            cases h1; cases h2
            rw [if_neg (by omega), if_neg (by omega)]
    · rename_i h
      simp only [reduceCtorEq, false_iff]
      rintro ⟨x, y, hs, _⟩
      exact h x y hs
  rw [lhs]
  unfold IsVersion
  refine exists_congr fun x => exists_congr fun y => ?_
  rw [split_two, pyInt_iff, pyInt_iff]
  tauto

/-- A file without a version, or with another text as version, is an error; nothing else happens. -/
theorem C107_rejected (attr : Option Str) : (∃ e, version attr = .error e) ↔ ∀ s a b, attr = some s → ¬IsVersion s a b := by
  cases attr with
  | none => simp [version]
  | some s =>
    constructor
    · rintro ⟨e, h⟩ s' a b hs hv
      cases hs
      rw [(C107_version s a b).2 hv] at h; cases h
    · intro h
      cases hv : version (some s) with
      | error e => exact ⟨e, rfl⟩
      | ok p => exact absurd ((C107_version s p.1 p.2).1 hv) (h s _ _ rfl)

/-! ### Decimal numbers -/

theorem val_digits : ∀ {s : Str} {acc : Nat}, (∀ c ∈ s, c.isDigit = true) → val acc s = Nat.ofDigitChars 10 s acc
  | [], acc, _ => by simp [val, Nat.ofDigitChars]
  | c :: s, acc, h => by
    rw [val, if_neg (notUnder (h c (.head _))), val_digits fun x hx => h x (.tail _ hx)]
    rfl

theorem dec_digit {n : Nat} {c : Char} (h : c ∈ Nat.toDigits 10 n) : c.isDigit = true := Nat.isDigit_of_mem_toDigits (by decide) (by decide) h

theorem digitSeq_of : ∀ {s : Str}, s ≠ [] → (∀ c ∈ s, c.isDigit = true) → DigitSeq s
  | [], h, _ => absurd rfl h
  | [c], _, h => .one (h c (.head _))
  | c :: d :: s, _, h => .more (h c (.head _)) (digitSeq_of (by simp) fun x hx => h x (.tail _ hx))

theorem dec_value (n : Nat) : Value 0 (Nat.toDigits 10 n) n := by
  refine value_iff.2 ⟨digitSeq_of Nat.toDigits_ne_nil fun _ => dec_digit, ?_⟩
  rw [val_digits fun _ => dec_digit]
  simp

theorem dec_inj {n m : Nat} (h : Nat.toDigits 10 n = Nat.toDigits 10 m) : n = m := by
  have := congrArg (fun l => Nat.ofDigitChars 10 l 0) h
  simpa using this

/-- The decimal digits of a version are a version. -/
theorem C107_decimal (a b : Nat) (ha : 0 < a) : version (some (Nat.toDigits 10 a ++ '.' :: Nat.toDigits 10 b)) = .ok ((a : Int), (b : Int)) := by
  refine (C107_version _ _ _).2 ⟨_, _, rfl, ?_, ?_, ?_, ?_, by omega, by omega⟩
  · intro h; exact absurd (dec_digit h) (by decide)
  · intro h; exact absurd (dec_digit h) (by decide)
  · exact ⟨[], _, [], by simp [FDecl.Blank], by simp [FDecl.Blank], by simp, a, .inl ⟨dec_value a, rfl⟩⟩
  · exact ⟨[], _, [], by simp [FDecl.Blank], by simp [FDecl.Blank], by simp, b, .inl ⟨dec_value b, rfl⟩⟩

/-- Different versions have different files. -/
theorem C107_distinct {root : Str} {a b a' b' : Nat} (h : fileName root (a, b) = fileName root (a', b')) : a = a' ∧ b = b' := by
  have cut : ∀ {x y x' y' : Str}, (∀ c ∈ x, c.isDigit = true) → (∀ c ∈ x', c.isDigit = true) → x ++ '_' :: y = x' ++ '_' :: y' → x = x' ∧ y = y' := by
    intro x
    induction x with
    | nil =>
      intro y x' y' _ h' e
      cases x' with
      | nil => exact ⟨rfl, by simpa using e⟩
      | cons c s => simp only [List.nil_append, List.cons_append, List.cons.injEq] at e; exact absurd (h' c (.head _)) (by rw [← e.1]; decide)
    | cons d x ih =>
      intro y x' y' h h' e
      cases x' with
      | nil => simp only [List.nil_append, List.cons_append, List.cons.injEq] at e; exact absurd (h d (.head _)) (by rw [e.1]; decide)
      | cons c s =>
        simp only [List.cons_append, List.cons.injEq] at e
        obtain ⟨g1, g2⟩ := ih (fun z hz => h z (.tail _ hz)) (fun z hz => h' z (.tail _ hz)) e.2
        exact ⟨by rw [e.1, g1], g2⟩
  unfold fileName at h
  simp only [List.append_assoc, List.append_cancel_left_eq] at h
  have h : Nat.toDigits 10 a ++ '_' :: (Nat.toDigits 10 b ++ ".xsd".toList) = Nat.toDigits 10 a' ++ '_' :: (Nat.toDigits 10 b' ++ ".xsd".toList) := by
    simpa [pyStr] using h
  obtain ⟨h1, h2⟩ := cut (fun _ => dec_digit) (fun _ => dec_digit) h
  exact ⟨dec_inj h1, dec_inj (List.append_cancel_right h2)⟩

/-! ### The schema -/

theorem path_iff {root dir f : Str} {a b : Nat} (hr : root.head? ≠ some '/') :
    (if dir ≠ [] then pathJoin dir (fileName root (a, b)) else fileName root (a, b)) = f ↔ SchemaPath root dir a b f := by
  have e : fileName root ((a : Int), (b : Int)) =
      root ++ "_v".toList ++ Nat.toDigits 10 a ++ "_".toList ++ Nat.toDigits 10 b ++ ".xsd".toList := by
    show root ++ "_v".toList ++ Nat.toDigits 10 a ++ '_' :: Nat.toDigits 10 b ++ ".xsd".toList = _
    rw [show "_".toList = ['_'] from rfl]
    simp only [List.append_assoc, List.cons_append, List.nil_append]
  have hh : (fileName root ((a : Int), (b : Int))).head? ≠ some '/' := by
    rw [e]
    cases root with
    | nil => simp
    | cons c s => simpa using hr
  unfold SchemaPath
  simp only
  rw [← e]
  have last : dir.getLast? = some '/' ↔ ∃ d, dir = d ++ "/".toList := List.getLast?_eq_some_iff
  by_cases hd : dir = []
  · subst hd
    rw [if_neg (by simp)]
    constructor
    · intro h; exact .inl ⟨rfl, h.symm⟩
    · rintro (⟨_, rfl⟩ | ⟨d, h, _⟩ | ⟨h, _⟩)
      · rfl
      · exact absurd (congrArg List.length h) (by simp)
      · exact absurd rfl h
  · rw [if_pos hd]
    unfold pathJoin
    rw [if_neg hh]
    by_cases hl : dir.getLast? = some '/'
    · rw [if_pos hl]
      obtain ⟨d, rfl⟩ := last.1 hl
      constructor
      · intro h; exact .inr (.inl ⟨d, rfl, h.symm⟩)
      · rintro (⟨h, _⟩ | ⟨d', h, rfl⟩ | ⟨_, h, _⟩)
        · exact absurd h hd
        · rw [h]
        · exact absurd rfl (h d)
    · rw [if_neg hl]
      constructor
      · intro h; exact .inr (.inr ⟨hd, fun d hd => hl (last.2 ⟨d, hd⟩), by rw [← h]; simp⟩)
      · rintro (⟨h, _⟩ | ⟨d', h, _⟩ | ⟨_, _, rfl⟩)
        · exact absurd h hd
        · exact absurd (last.2 ⟨d', h⟩) hl
        · simp

/-- The schema of a version: the given file, or else the file of the version in the given or the standard directory, which must exist. -/
theorem C107_schema {s root dir standard f : Str} {isFile : Str → Bool} (hr : root.head? ≠ some '/') :
    schemaFor (some s) root dir standard isFile = .ok f ↔
      ∃ a b : Nat, IsVersion s a b ∧
        ((isFile root = true ∧ f = root) ∨
          (isFile root = false ∧ SchemaPath root (if dir = [] then standard else dir) a b f ∧ isFile f = true)) := by
  unfold schemaFor
  cases hv : version (some s) with
  | error e =>
    simp only [reduceCtorEq, false_iff]
    rintro ⟨a, b, h, _⟩
    rw [(C107_version s a b).2 h] at hv; cases hv
  | ok p =>
    obtain ⟨a, b⟩ := p
    have hiv := (C107_version s a b).1 hv
    obtain ⟨_, _, _, _, _, _, _, ha, hb⟩ := id hiv
    lift a to Nat using by omega with a'
    lift b to Nat using hb with b'
    have uniq : ∀ {x y : Nat}, IsVersion s x y → x = a' ∧ y = b' := by
      intro x y h
      rw [(C107_version s x y).2 h] at hv
      simp only [Except.ok.injEq, Prod.mk.injEq] at hv
      omega
    by_cases hf : isFile root = true
    · rw [if_pos hf]
      constructor
      · intro h; cases h; exact ⟨a', b', hiv, .inl ⟨hf, rfl⟩⟩
      · rintro ⟨_, _, _, ⟨_, rfl⟩ | ⟨h, _⟩⟩
        · rfl
        · rw [hf] at h; cases h
    · rw [if_neg hf]
      have hd : (if dir ≠ [] then dir else standard) = if dir = [] then standard else dir := by by_cases h : dir = [] <;> simp [h]
      rw [hd]
      generalize (if dir = [] then standard else dir) = dd
      have hp := fun g => path_iff (dir := dd) (f := g) (a := a') (b := b') hr
      unfold schemaFile
      obtain ⟨g, hg⟩ : ∃ g, g = if dd ≠ [] then pathJoin dd (fileName root (a', b')) else fileName root (a', b') := ⟨_, rfl⟩
      rw [← hg] at hp
      show (match (let f := if dd ≠ [] then pathJoin dd (fileName root (a', b')) else fileName root (a', b')
          if isFile f = true then some f else none) with
        | some f => Except.ok f
        | none => Except.error Err.noSchema) = .ok f ↔ _
      rw [← hg]
      clear hg
      constructor
      · intro h
        by_cases hg : isFile g = true
        · rw [if_pos hg] at h
          cases h
          exact ⟨a', b', hiv, .inr ⟨by simpa using hf, (hp _).1 rfl, hg⟩⟩
        · rw [if_neg hg] at h; cases h
      · rintro ⟨x, y, h, ⟨h1, _⟩ | ⟨_, h2, h3⟩⟩
        · exact absurd h1 hf
        · obtain ⟨rfl, rfl⟩ := uniq h
          rw [← (hp f).2 h2] at h3 ⊢
          rw [if_pos h3]

/-! ### Concrete cases -/

/-- A version with two digits, blanks and underscores; and what is not accepted. -/
example : version (some "2.0".toList) = .ok (2, 0) ∧ version (some " 1_0 .+3".toList) = .ok (10, 3) ∧ version (some "0.0".toList) = .error .major ∧
    version (some "1.-1".toList) = .error .minor ∧ version (some "1.a".toList) = .error .notInteger ∧ version (some "1".toList) = .error .parts ∧
    version none = .error .missing := by decide +kernel

/-- The schema of a suite file. -/
example : schemaFor (some "1.0".toList) "suite".toList [] "/ccpp/schema".toList (fun f => f == "/ccpp/schema/suite_v1_0.xsd".toList) =
    .ok "/ccpp/schema/suite_v1_0.xsd".toList := by rfl

end Ccpp.SV
