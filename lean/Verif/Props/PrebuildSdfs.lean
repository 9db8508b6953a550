import Verif.Spec.PrebuildSdfs
import Verif.Props.VarRef
/-!
# C111: the suites of a run of prebuild
-/
namespace Ccpp.SD

theorem words_iff {ws : List Str} {s : Str} : Words ws s ↔ Chk.splitOn ',' s = ws := by
  constructor
  · intro h
    induction h with
    | one h => exact Chk.splitOn_item _ _ h
    | cons h _ ih => rw [List.append_assoc, List.singleton_append, Chk.splitOn_append _ _ _ h, ih]
  · rintro rfl
    induction s with
    | nil => exact .one (by simp)
    | cons c s ih =>
      rw [Chk.splitOn]
      by_cases hc : c = ','
      · rw [if_pos hc, hc]
        exact .cons (w := []) (by simp) ih
      · rw [if_neg hc]
        cases hs : Chk.splitOn ',' s with
        | nil => exact absurd hs (Chk.splitOn_ne_nil _ _)
        | cons t ts =>
          rw [hs] at ih
          cases ih with
          | one h => exact .one (by simp [h, Ne.symm hc])
          | cons h h2 => exact .cons (w := c :: t) (by simp [h, Ne.symm hc]) h2

theorem getLast_iff {d : Str} {c : Char} : d.getLast? = some c ↔ ∃ e, d = e ++ [c] := by
  rw [List.getLast?_eq_some_iff]

theorem path_iff {d f p : Str} : Path d f p ↔ pathJoin d f = p := by
  unfold pathJoin
  constructor
  · intro h
    cases h with
    | root h => rw [if_pos h]
    | here h hd => rw [if_neg h, if_pos (.inl hd), hd]; rfl
    | slash h hd => rw [if_neg h, if_pos (.inr (getLast_iff.2 ⟨_, hd⟩))]
    | dir h h1 h2 =>
      rw [if_neg h, if_neg]
      · simp
      · rintro (g | g)
        · exact h1 g
        · obtain ⟨e, g⟩ := getLast_iff.1 g
          exact h2 e g
  · rintro rfl
    by_cases h : f.head? = some '/'
    · rw [if_pos h]; exact .root h
    · rw [if_neg h]
      by_cases h1 : d = []
      · subst h1
        rw [if_pos (.inl rfl)]
        exact .here h rfl
      · by_cases h2 : d.getLast? = some '/'
        · rw [if_pos (.inr h2)]
          obtain ⟨e, g⟩ := getLast_iff.1 h2
          exact .slash h g
        · rw [if_neg (by simp [h1, h2])]
          have := Path.dir (d := d) (f := f) h h1 fun e g => h2 (getLast_iff.2 ⟨e, g⟩)
          simpa using this

theorem select_iff {ex : Str → Bool} {dir n p : Str} : select ex dir n = some p ↔ Chosen ex dir n p := by
  unfold select Chosen
  simp only [path_iff]
  cases h1 : ex (pathJoin dir n) with
  | true =>
    rw [if_pos rfl]
    constructor
    · intro h
      cases Option.some.inj h
      exact ⟨h1, .inl rfl⟩
    · rintro ⟨_, h | ⟨_, h⟩⟩
      · rw [h]
      · rw [h _ rfl] at h1; cases h1
  | false =>
    rw [if_neg (by simp)]
    constructor
    · intro h
      obtain ⟨g, e⟩ := Option.ite_none_right_eq_some.1 h
      cases Option.some.inj e
      exact ⟨g, .inr ⟨rfl, by rintro q rfl; exact h1⟩⟩
    · rintro ⟨g, h | ⟨h, _⟩⟩
      · rw [← h, h1] at g; cases g
      · rw [h, if_pos g]

theorem loop_iff {α : Type} {ex : Str → Bool} {parse : Str → Option α} {dir : Str} : ∀ {sdfs : List Str} {acc l : List α},
    loop ex parse dir acc sdfs = (true, l) ↔
      ∃ r, l = acc ++ r ∧ List.Forall₂ (fun n s => ∃ p, Chosen ex dir n p ∧ parse p = some s) sdfs r
  | [], acc, l => by
    simp only [loop, Prod.mk.injEq, true_and, List.forall₂_nil_left_iff, exists_eq_right, List.append_nil]
    exact eq_comm
  | n :: sdfs, acc, l => by
    rw [loop]
    cases h1 : select ex dir n with
    | none =>
      simp only [Prod.mk.injEq, Bool.false_eq_true, false_and, false_iff]
      rintro ⟨r, _, h⟩
      cases h with
      | cons h _ =>
        obtain ⟨p, hp, _⟩ := h
        rw [select_iff.2 hp] at h1
        cases h1
    | some f =>
      have hf : ∀ p, Chosen ex dir n p → p = f := fun p hp => by
        rw [select_iff.2 hp] at h1
        exact Option.some.inj h1
      cases h2 : parse f with
      | none =>
        simp only [h2, Prod.mk.injEq, Bool.false_eq_true, false_and, false_iff]
        rintro ⟨r, _, h⟩
        cases h with
        | cons h _ =>
          obtain ⟨p, hp, h⟩ := h
          rw [hf p hp, h2] at h
          cases h
      | some s =>
        simp only [h2]
        rw [loop_iff]
        constructor
        · rintro ⟨r, rfl, h⟩
          exact ⟨s :: r, by simp, .cons ⟨f, select_iff.1 h1, h2⟩ h⟩
        · rintro ⟨r, rfl, h⟩
          cases h with
          | cons h h' =>
            obtain ⟨p, hp, h⟩ := h
            rw [hf p hp, h2] at h
            cases Option.some.inj h
            exact ⟨_, by simp, h'⟩

theorem isSdf_iff {f : Str} (h : '\n' ∉ f) : isSdf f = true ↔ ∃ stem, f = stem ++ ".xml".toList := by
  have hl : f.getLast? ≠ some '\n' := fun g => h (List.mem_of_getLast? g)
  simp only [isSdf, hl, if_false, Bool.and_eq_true, List.all_eq_true, bne_iff_ne, List.isSuffixOf_iff_suffix]
  constructor
  · rintro ⟨_, stem, e⟩; exact ⟨stem, e.symm⟩
  · rintro ⟨stem, e⟩; exact ⟨fun c hc e => h (e ▸ hc), stem, e.symm⟩

theorem names_iff {arg : Option Str} {listing l : List Str} (hn : ∀ f ∈ listing, '\n' ∉ f) :
    ((given arg).orElse fun _ => allSuites listing) = some l ↔ Names arg listing l := by
  have hall : allSuites listing = some l ↔
      l.Sublist listing ∧ l ≠ [] ∧ ∃ p : Str → Bool, l = listing.filter p ∧ ∀ f ∈ listing, (p f = true ↔ ∃ stem, f = stem ++ ".xml".toList) := by
    unfold allSuites
    constructor
    · intro h
      obtain ⟨g, e⟩ := Option.ite_none_left_eq_some.1 h
      cases Option.some.inj e
      exact ⟨List.filter_sublist, g, isSdf, rfl, fun f hf => isSdf_iff (hn f hf)⟩
    · rintro ⟨_, hne, p, rfl, hp⟩
      have : listing.filter isSdf = listing.filter p := List.filter_congr fun f hf => by
        rw [Bool.eq_iff_iff, isSdf_iff (hn f hf), hp f hf]
      simp only [this, if_neg hne]
  unfold Names
  cases arg with
  | none =>
    show allSuites listing = some l ↔ _
    rw [hall]
    simp
  | some s =>
    by_cases hs : s = []
    · subst hs
      show allSuites listing = some l ↔ _
      rw [hall]
      simp
    · simp only [given, hs, if_false, Option.orElse_some, Option.orElse, Option.some.injEq, reduceCtorEq, hs, or_self, false_and, or_false]
      constructor
      · rintro rfl
        exact ⟨s, _, rfl, hs, words_iff.2 rfl, rfl⟩
      · rintro ⟨t, ws, rfl, _, h, rfl⟩
        rw [words_iff.1 h]

theorem splitOn_map_ne {s : Str} : (Chk.splitOn ',' s).map (fun x => x ++ ".xml".toList) ≠ [] := by
  simp only [ne_eq, List.map_eq_nil_iff]
  exact Chk.splitOn_ne_nil _ _

theorem names_ne {arg : Option Str} {listing l : List Str} (h : Names arg listing l) : l ≠ [] := by
  rcases h with ⟨s, ws, _, _, h, rfl⟩ | ⟨_, _, h, _⟩
  · rw [← words_iff.1 h]; exact splitOn_map_ne
  · exact h

/-- The run goes on with these suites exactly if there are names of suites, the file of each of them is there and can be read, and these are the
suites of the files, in the order of the names. -/
theorem C111_suites {α : Type} {arg : Option Str} {listing : List Str} {ex : Str → Bool} {parse : Str → Option α} {dir : Str} {l : List α}
    (hn : ∀ f ∈ listing, '\n' ∉ f) :
    suites arg listing ex parse dir = some l ↔
      ∃ names, Names arg listing names ∧ List.Forall₂ (fun n s => ∃ p, Chosen ex dir n p ∧ parse p = some s) names l := by
  unfold suites
  cases h : (given arg).orElse fun _ => allSuites listing with
  | none =>
    simp only [reduceCtorEq, false_iff]
    rintro ⟨names, g, _⟩
    rw [(names_iff hn).2 g] at h
    cases h
  | some sdfs =>
    have hN := (names_iff hn).1 h
    have hu : ∀ names, Names arg listing names → names = sdfs := fun names g => by
      rw [(names_iff hn).2 g] at h
      exact Option.some.inj h
    have : (∃ names, Names arg listing names ∧ List.Forall₂ (fun n s => ∃ p, Chosen ex dir n p ∧ parse p = some s) names l) ↔
        loop ex parse dir [] sdfs = (true, l) := by
      rw [loop_iff]
      constructor
      · rintro ⟨names, g, g2⟩
        cases hu names g
        exact ⟨l, rfl, g2⟩
      · rintro ⟨r, rfl, g⟩
        exact ⟨sdfs, hN, g⟩
    rw [this]
    simp only [parseSuites, if_neg (names_ne hN)]
    rcases hlo : loop ex parse dir [] sdfs with ⟨b, r⟩
    cases b <;> simp

/-- The file of a suite is determined. -/
theorem C111_chosen_unique {ex : Str → Bool} {dir n p q : Str} (h : Chosen ex dir n p) (h' : Chosen ex dir n q) : p = q := by
  have := select_iff.2 h
  rw [select_iff.2 h'] at this
  exact (Option.some.inj this).symm

/-- The names of the suites of a run are determined. -/
theorem C111_names_unique {arg : Option Str} {listing l m : List Str} (hn : ∀ f ∈ listing, '\n' ∉ f)
    (h : Names arg listing l) (h' : Names arg listing m) : l = m := by
  have := (names_iff hn).2 h
  rw [(names_iff hn).2 h'] at this
  exact (Option.some.inj this).symm

/-- Two suites, of which one has an old name; a run without names takes the file that is there. -/
example : suites (some "a,b".toList) ["suite_a.xml".toList] (fun p => p = "d/suite_a.xml".toList ∨ p = "d/b.xml".toList) some "d".toList =
      some ["d/suite_a.xml".toList, "d/b.xml".toList] ∧
    suites none ["suite_a.xml".toList, "x.txt".toList] (fun p => p = "d/suite_a.xml".toList) some "d".toList = some ["d/suite_a.xml".toList] ∧
    suites (some "c".toList) [] (fun _ => false) some "d".toList = none := by
  refine ⟨by decide +kernel, by decide +kernel, by decide +kernel⟩

end Ccpp.SD
