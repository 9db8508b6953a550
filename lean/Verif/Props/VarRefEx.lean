import Verif.Props.VarRef
/-!
# C91: use in declarations, an example, and where the property fails
-/
namespace Ccpp.VRef

open Ccpp.FDecl (DimText)

/-- The texts of all variables are names or numbers. -/
def Simple (dicts : List Dict) : Prop := ∀ d ∈ dicts, ∀ s t, d.find s = some (some t) → ∀ c ∈ t, isWordC c = true

theorem first_simple {dicts : List Dict} {s t : Str} (h : First dicts s t) (hs : Simple dicts) : ∀ c ∈ t, isWordC c = true := by
  induction h with
  | here h => exact hs _ (by simp) _ _ h
  | later _ _ ih => exact ih fun d hd => hs d (List.mem_cons_of_mem _ hd)

theorem entry_simple {dicts : List Dict} {dim t : Str} (hs : Simple dicts) (h : Entry dicts false false dim t) :
    t = [':'] ∨ ∀ c ∈ t, isWordC c = true := by
  cases h with
  | range => exact .inl rfl
  | loop _ h => cases h
  | names h _ hp he =>
    rename_i ps ts
    have h : ':' ∉ dim := h.elim (fun h => by cases h) id
    rw [parts_iff, Chk.splitOn_item ':' dim h] at hp
    subst hp
    cases he with
    | cons hf he =>
      cases he
      exact .inr (first_simple hf hs)

theorem sepBy_simple : ∀ (ts : List Str), (∀ t ∈ ts, t = [':'] ∨ ∀ c ∈ t, isWordC c = true) →
    (∀ c ∈ sepBy [','] ts, isWordC c = true ∨ c = ':' ∨ c = ',') ∧ ¬ [':', ':'] <:+: sepBy [','] ts
  | [], _ => ⟨(by intro c hc; cases hc), (by simp [sepBy])⟩
  | [t], h => by
    rcases h t (by simp) with rfl | h
    · exact ⟨by intro c hc; exact .inr (.inl (by simpa [sepBy] using hc)), VText.dd_one ':'⟩
    · exact ⟨fun c hc => .inl (h c hc), VText.dd_plain (VText.plain_word h)⟩
  | t :: u :: ts, h => by
    obtain ⟨h1, h2⟩ := sepBy_simple (u :: ts) fun x hx => h x (List.mem_cons_of_mem _ hx)
    have e : sepBy [','] (t :: u :: ts) = t ++ [','] ++ sepBy [','] (u :: ts) := rfl
    rw [e]
    have h3 : ¬ [':', ':'] <:+: ',' :: sepBy [','] (u :: ts) := VText.dd_pre (p := [',']) (by decide) h2
    rcases h t (by simp) with rfl | h
    · refine ⟨?_, ?_⟩
      · intro c hc
        rcases List.mem_cons.1 hc with rfl | hc
        · exact .inr (.inl rfl)
        rcases List.mem_cons.1 hc with rfl | hc
        · exact .inr (.inr rfl)
        · exact h1 c hc
      · show ¬ [':', ':'] <:+: ':' :: ',' :: sepBy [','] (u :: ts)
        rw [List.infix_cons_iff]
        rintro (h | h)
        · simp [List.cons_prefix_cons] at h
        · exact h3 h
    · refine ⟨?_, ?_⟩
      · intro c hc
        rw [List.append_assoc] at hc
        rcases List.mem_append.1 hc with hc | hc
        · exact .inl (h c hc)
        rcases List.mem_cons.1 hc with rfl | hc
        · exact .inr (.inr rfl)
        · exact h1 c hc
      · rw [List.append_assoc]
        exact VText.dd_pre (VText.plain_colon (VText.plain_word h)) h3

theorem each_mem {R : Str → Str → Prop} {l ts : List Str} (h : Each R l ts) {t : Str} (ht : t ∈ ts) : ∃ x ∈ l, R x t := by
  induction h with
  | nil => cases ht
  | cons a _ ih =>
    rcases List.mem_cons.1 ht with rfl | ht
    · exact ⟨_, by simp, a⟩
    · obtain ⟨x, hx, hr⟩ := ih ht
      exact ⟨x, by simp [hx], hr⟩

/-- The list of dimensions in a declaration (C90) can be declared, for variables that are names or numbers. -/
theorem C91_declarable {name : Str} (hn : Named name) {dims : List Str} {dicts : List Dict} (hs : Simple dicts)
    {t : Str} (h : callDimstring name dims (some dicts) false false = some t) (hne : t ≠ []) :
    ∃ u, t = '(' :: (u ++ [')']) ∧ DimText u ∧ '!' ∉ u ∧ ¬ [':', ':'] <:+: u := by
  obtain ⟨n, l, ts, _, he, rfl⟩ := (C91_dimensions hn _ _ _ _ _).1 h
  by_cases hl : l = []
  · rw [if_pos hl] at hne; exact absurd rfl hne
  · rw [if_neg hl]
    obtain ⟨h1, h2⟩ := sepBy_simple ts fun x hx => by
      obtain ⟨y, _, hr⟩ := each_mem he hx
      exact entry_simple hs hr
    have hc : ∀ c ∈ sepBy [','] ts, c ≠ '(' ∧ c ≠ ')' ∧ c ≠ '=' ∧ c ≠ '"' ∧ c ≠ '\'' ∧ c ≠ '!' := by
      intro c hc
      rcases h1 c hc with h | rfl | rfl
      · refine ⟨?_, ?_, ?_, ?_, ?_, ?_⟩ <;> (rintro rfl; revert h; decide)
      · decide
      · decide
    have hp : ∀ c ∈ sepBy [','] ts, c ≠ '(' ∧ c ≠ ')' := fun c h => ⟨(hc c h).1, (hc c h).2.1⟩
    refine ⟨_, rfl, ⟨FDecl.balance_plain hp, ?_, ?_⟩, fun h => (hc _ h).2.2.2.2.2 rfl, h2⟩
    · intro a b e
      rw [FDecl.balance_plain fun c h => hp c (e ▸ List.mem_append_left _ h)]
    · intro c h
      exact ⟨(hc c h).2.2.1, (hc c h).2.2.2.1, (hc c h).2.2.2.2.1⟩

/-! ## Example -/

/-- Two variables for dimensions, a constant and a loop substitution. -/
def exDict : Dict where
  find := fun s =>
    if s = "horizontal_dimension".toList then some (some "ncol".toList)
    else if s = "vertical_layer_dimension".toList then some (some "nz".toList)
    else if s = "ccpp_constant_one".toList then some (some "1".toList)
    else if s = "index_of_water_vapor".toList then some (some "iqv".toList)
    else none
  loop := fun s => if s = "ccpp_constant_one:horizontal_loop_extent".toList then some "cs:ce".toList else none

/-- The dimensions of the example. -/
def exDims : List Str := ["ccpp_constant_one:horizontal_loop_extent".toList, "ccpp_constant_one:vertical_layer_dimension".toList]

theorem C91_example_named : Named "q(:,:,index_of_water_vapor)".toList := by
  refine .inr ⟨"q".toList, [":".toList, ":".toList, "index_of_water_vapor".toList], ?_, by decide⟩
  refine ⟨⟨'q', [], rfl, by decide, by simp⟩, [], ":,:,index_of_water_vapor".toList, by simp, ?_, rfl⟩
  have c : RC.Dim ":".toList := .inr (.inl rfl)
  have i : RC.Dim "index_of_water_vapor".toList := .inl ⟨'i', "ndex_of_water_vapor".toList, rfl, by decide, by decide⟩
  have := RC.Dims.more (a := []) (b := []) (by simp) c (by simp) (RC.Dims.more (a := []) (b := []) (by simp) c (by simp)
    (RC.Dims.one (a := []) (b := []) (by simp) i (by simp)))
  simpa using this

theorem C91_example : handleArrayRef "q(:,:,index_of_water_vapor)".toList exDims =
      some ("q".toList, exDims ++ ["index_of_water_vapor".toList]) ∧
    callString exDict exDict.loop "q(:,:,index_of_water_vapor)".toList exDims = some "q(cs:ce, 1:nz, iqv)".toList ∧
    callDimstring "q(:,:,index_of_water_vapor)".toList exDims (some [⟨fun _ => none, fun _ => none⟩, exDict]) true true =
      some "(cs:ce,1:nz,iqv)".toList ∧
    callDimstring "q(:,:,index_of_water_vapor)".toList exDims (some [exDict]) false false = some "(:,:,iqv)".toList ∧
    callDimstring "t".toList exDims none false false = some "(:,:)".toList ∧
    handleArrayRef "q(:,index_of_water_vapor)".toList exDims = none := by decide +kernel

/-! ## Violation -/

/-- A number as a bound is written in an argument, but is an error in a list of dimensions with explicit ranges. -/
theorem C91_number_violated {s : Str} (hi : Chk.IsInt s) (hc : ':' ∉ s) (d : Dict) (hf : d.find s = none) (hl : d.loop s = none)
    (e b : Bool) : callString d d.loop "x".toList [s] = some ("x(".toList ++ s ++ ")".toList) ∧
    callDimstring "x".toList [s] (some [d]) e b = none := by
  have hx : Named "x".toList := .inl (by decide)
  have hne : s ≠ [] := by
    rintro rfl
    have := (Chk.isPyInt_iff []).2 hi
    revert this; decide
  have hp : ColonParts s [s] := ⟨by simp, by simpa using hc, rfl⟩
  refine ⟨?_, ?_⟩
  · rw [C91_argument hx]
    exact ⟨_, _, [s], .plain (by decide), .cons (.parts hl hp (.cons (.number hne hf hi) .nil)) .nil, by simp [parens, sepBy]⟩
  · cases h : callDimstring "x".toList [s] (some [d]) e b with
    | none => rfl
    | some t =>
      exfalso
      obtain ⟨n, l, ts, ha, he, -⟩ := (C91_dimensions hx _ _ _ _ _).1 h
      cases ha with
      | ref hr _ _ => exact absurd (ref_paren hr) (by decide)
      | plain _ =>
        cases he with
        | cons h1 _ =>
          cases h1 with
          | range _ g => exact hc g
          | loop _ _ g =>
            cases g with
            | here g => rw [hl] at g; cases g
            | later _ g => cases g
          | names _ _ g1 g2 =>
            rw [parts_iff, Chk.splitOn_item ':' s hc] at g1
            subst g1
            cases g2 with
            | cons g _ =>
              cases g with
              | here g => rw [hf] at g; cases g
              | later _ g => cases g

end Ccpp.VRef
