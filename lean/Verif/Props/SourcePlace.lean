import Verif.Spec.SourcePlace
import Verif.Props.SchemaVersion
/-!
# C112: the places in messages
-/
namespace Ccpp.PL

theorem basename_last (f : Str) : LastPart f (basename f) := by
  unfold basename
  refine ⟨?_, (f.reverse.dropWhile (· != '/')).reverse, ?_, ?_⟩
  · rw [List.mem_reverse]
    intro h
    have := List.all_eq_true.1 (List.all_takeWhile (p := (· != '/')) (l := f.reverse)) _ h
    simp at this
  · rw [← List.reverse_append, List.takeWhile_append_dropWhile, List.reverse_reverse]
  · cases h : f.reverse.dropWhile (· != '/') with
    | nil => exact .inl rfl
    | cons c r =>
      refine .inr ⟨r.reverse, ?_⟩
      have h2 : (f.reverse.dropWhile (· != '/')).head? = some c := by rw [h]; rfl
      have := List.head?_dropWhile_not (· != '/') f.reverse
      rw [h2] at this
      have hc : c = '/' := by simpa using this
      rw [List.reverse_cons, hc]

/-- The state of a context: its line counted from one, if there is one. -/
def lineOf (c : Context) : Option Nat := if c.line < 0 then none else some (c.line + 1).toNat

theorem format_place (nodir : Bool) (c : Context) : PlaceText (if nodir then basename c.file else c.file) (lineOf c) (format nodir c) := by
  unfold format lineOf PlaceText
  by_cases h : c.line < 0
  · rw [if_pos h]
    exact .inl ⟨rfl, by rw [if_neg (by omega)]⟩
  · rw [if_neg h]
    refine .inr ⟨_, rfl, ?_⟩
    rw [if_pos (by omega)]
    obtain ⟨n, hn⟩ := Int.eq_ofNat_of_zero_le (show 0 ≤ c.line + 1 by omega)
    rw [hn]
    simp [pyStr]

theorem lineOf_increment (c : Context) (s : Nat) : lineOf (increment c s) = some (((lineOf c).getD 1) + s) := by
  unfold lineOf increment
  by_cases h : c.line < 0
  · simp only [h, if_true, Option.getD_none]
    rw [if_neg (by omega)]
    congr 1
    omega
  · simp only [h, if_false, Option.getD_some]
    rw [if_neg (by omega)]
    congr 1
    omega

theorem lineOf_steps (c : Context) (steps : List Nat) :
    lineOf (steps.foldl (fun c (s : Nat) => increment c (s : Int)) c) = LineAfter (lineOf c) steps := by
  induction steps generalizing c with
  | nil => cases h : lineOf c <;> simp [LineAfter, h]
  | cons s r ih =>
    rw [List.foldl_cons, ih, lineOf_increment]
    cases h : lineOf c with
    | none => simp [LineAfter]; omega
    | some n => simp [LineAfter]; omega

theorem file_steps (c : Context) (steps : List Nat) : (steps.foldl (fun c (s : Nat) => increment c (s : Int)) c).file = c.file := by
  induction steps generalizing c with
  | nil => rfl
  | cons s r ih => rw [List.foldl_cons, ih]; rfl

theorem lineOf_new (n : Option Nat) (f : Option Str) : lineOf (new (n.map fun (k : Nat) => (k : Int)) f) = n.map (· + 1) := by
  cases n with
  | none => simp [new, lineOf]
  | some k =>
    show (if (k : Int) < 0 then none else some ((k : Int) + 1).toNat) = some (k + 1)
    rw [if_neg (by omega)]
    congr 1

/-- A message about the place that a parser has reached from its start by steps names the file (or its last part) and the line, after
`, at` if there is a line, and after `, in` if there is none. -/
theorem C112_text (start : Option Nat) (file : Str) (steps : List Nat) (nodir : Bool) :
    let c := steps.foldl (fun c (s : Nat) => increment c (s : Int)) (new (start.map fun (k : Nat) => (k : Int)) (some file))
    let line := LineAfter (start.map (· + 1)) steps
    ∃ f t, (nodir = true → LastPart file f) ∧ (nodir = false → f = file) ∧ PlaceText f line t ∧
      contextString (some c) false nodir = t ∧
      contextString (some c) true nodir = (if line.isSome then ", at ".toList else ", in ".toList) ++ t := by
  intro c line
  have hl : lineOf c = line := by rw [lineOf_steps, lineOf_new]
  have hf : c.file = file := file_steps _ _
  refine ⟨if nodir then basename file else file, format nodir c, ?_, ?_, ?_, rfl, ?_⟩
  · rintro rfl; exact basename_last file
  · rintro rfl; rfl
  · have := format_place nodir c
    rwa [hl, hf] at this
  · rw [← hl]
    unfold contextString lineOf
    by_cases h : c.line < 0
    · simp [h]
    · simp [h]

/-- Without a context the text is empty. -/
theorem C112_none (withComma nodir : Bool) : contextString none withComma nodir = [] := rfl

/-- The file and the line can be read from the text, if names of files have no colons. -/
theorem C112_readable {f f' : Str} {l l' : Option Nat} {t : Str} (hf : ':' ∉ f) (hf' : ':' ∉ f') (h : PlaceText f l t) (h' : PlaceText f' l' t) :
    f = f' ∧ l = l' := by
  have hc : ∀ {n : Nat} {g : Str}, ':' ∈ g ++ [':'] ++ Nat.toDigits 10 n := by intro n g; simp
  rcases h with ⟨rfl, rfl⟩ | ⟨n, rfl, rfl⟩ <;> rcases h' with ⟨rfl, h'⟩ | ⟨m, rfl, h'⟩
  · exact ⟨h', rfl⟩
  · exact absurd (by rw [h']; exact hc) hf
  · exact absurd (by rw [← h']; exact hc) hf'
  · rw [List.append_assoc, List.append_assoc, List.singleton_append, List.singleton_append] at h'
    have : ∀ {a b x y : Str}, ':' ∉ a → ':' ∉ b → a ++ ':' :: x = b ++ ':' :: y → a = b ∧ x = y := by
      intro a
      induction a with
      | nil =>
        intro b x y _ hb e
        cases b with
        | nil => exact ⟨rfl, by simpa using e⟩
        | cons d b =>
          simp only [List.nil_append, List.cons_append, List.cons.injEq] at e
          exact absurd (by rw [← e.1]; exact .head _) hb
      | cons c a ih =>
        intro b x y ha hb e
        cases b with
        | nil =>
          simp only [List.nil_append, List.cons_append, List.cons.injEq] at e
          exact absurd (by rw [e.1]; exact .head _) ha
        | cons d b =>
          simp only [List.cons_append, List.cons.injEq] at e
          obtain ⟨g1, g2⟩ := ih (fun h => ha (.tail _ h)) (fun h => hb (.tail _ h)) e.2
          exact ⟨by rw [e.1, g1], g2⟩
    obtain ⟨g1, g2⟩ := this hf hf' h'
    exact ⟨g1, by rw [SV.dec_inj g2]⟩

/-- A path has one last part. -/
theorem C112_last_unique {f b b' : Str} (h : LastPart f b) (h' : LastPart f b') : b = b' := by
  have key : ∀ {c : Str}, LastPart f c → c = basename f := by
    rintro c ⟨hc, d, rfl, hd⟩
    have hne : ∀ x ∈ c.reverse, (x != '/') = true := fun x hx => by
      simp only [bne_iff_ne]
      rintro rfl
      exact hc (List.mem_reverse.1 hx)
    unfold basename
    rw [List.reverse_append, List.takeWhile_append_of_pos hne]
    rcases hd with rfl | ⟨e, rfl⟩
    · simp
    · simp
  rw [key h, key h']

/-- A parser at line 33 of a file. -/
example : contextString (some (increment (increment (new (some 0) (some "dir/a.F90".toList)) 30) 2)) true true = ", at a.F90:33".toList ∧
    contextString (some (new none (some "dir/a.F90".toList))) true false = ", in dir/a.F90".toList := by
  constructor <;> decide +kernel

end Ccpp.PL
