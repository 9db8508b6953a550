import Verif.Props.PrebuildSections
import Verif.Props.PrebuildArgs
/-!
# The sections of arrays (C76): the theorems
-/
namespace Ccpp.SC
open PB (Str IsName IsLiteral joined splitOn joinWith_eq joined_cons splitOn_none splitOn_append)
open PA (HVar find)

/-! ## Bounds -/

theorem find_iff {h : List HVar} (hu : (h.map (·.std)).Nodup) {n : Str} {v : HVar} : find h n = some v ↔ v ∈ h ∧ v.std = n :=
  ⟨PA.find_mem, fun ⟨h1, h2⟩ => h2 ▸ PA.find_of_mem hu h1⟩

theorem loc_iff {h : List HVar} (hu : (h.map (·.std)).Nodup) {n t : Str} : (find h n).map (·.loc) = some t ↔ Names h n t := by
  rw [Option.map_eq_some_iff]
  constructor
  · rintro ⟨v, hv, rfl⟩; exact ⟨v, ((find_iff hu).1 hv).1, ((find_iff hu).1 hv).2, rfl⟩
  · rintro ⟨v, h1, h2, h3⟩; exact ⟨v, (find_iff hu).2 ⟨h1, h2⟩, h3⟩

theorem strip_word {s : Str} (h : IsLiteral s ∨ IsName s) : strip s = s := by
  have := PB.strip_core (a := []) (s := s) (b := []) (by intro c hc; cases hc) (by intro c hc; cases hc) (PB.word_chars h).1
    (fun c hc => (PB.word_not ((PB.word_chars h).2 c hc)).1)
  simpa using this

theorem bound_iff {h : List HVar} (hu : (h.map (·.std)).Nodup) {d t : Str} (hd : IsLiteral (lower d) ∨ IsName (lower d)) :
    bound h d = some t ↔ Bound h d t := by
  unfold bound Bound
  rw [strip_word hd]
  rcases hd with hl | hn
  · rw [PB.isInt_literal hl]
    simp only [if_true, Option.some.injEq]
    constructor
    · intro h; exact .inl ⟨hl, h.symm⟩
    · rintro (⟨_, h⟩ | ⟨hn, _⟩)
      · exact h.symm
      · exact (PB.literal_not_name hl hn).elim
  · rw [PB.isInt_name hn]
    simp only [Bool.false_eq_true, if_false]
    rw [loc_iff hu]
    constructor
    · rintro ⟨v, h1, h2, h3⟩; exact .inr ⟨hn, v, h1, h2, h3.symm⟩
    · rintro (⟨hl, _⟩ | ⟨_, v, h1, h2, h3⟩)
      · exact (PB.literal_not_name hl hn).elim
      · exact ⟨v, h1, h2, h3.symm⟩

/-- The name stands in one of the dimensions -/
def inDims (n : Str) (ds : List Str) : Prop := ∃ e ∈ ds, n ∈ (splitOn ':' e).map lower

theorem inDims_iff {h : List HVar} (hd : PA.DimsOk h) {v : HVar} (hv : v ∈ h) {n : Str} (hn : IsName n) : inDims n v.dims ↔ PA.DimOf v n := by
  constructor
  · rintro ⟨e, he, hm⟩
    obtain ⟨p, hp, rfl⟩ := List.mem_map.1 hm
    apply PA.dimNames_of hd hv
    unfold PA.dimNames
    rw [List.mem_filterMap]
    exact ⟨p, List.mem_flatten.2 ⟨_, List.mem_map.2 ⟨e, he, rfl⟩, hp⟩, by simp [PB.isInt_name hn]⟩
  · rintro ⟨parts, hne, hc, hm, _, p, hp, rfl⟩
    exact ⟨_, hm, by rw [PB.splitOn_joined hne hc]; exact List.mem_map.2 ⟨p, hp, rfl⟩⟩

open Classical in
theorem contiguous_eq : ∀ {ds : List Str} (r : Option Bool), (∀ e ∈ ds, ':' ∈ e) →
    (¬ (inDims "horizontal_dimension".toList ds ∧ inDims "horizontal_loop_extent".toList ds)) →
    contiguous r ds = some (if inDims "horizontal_dimension".toList ds then some true else if inDims "horizontal_loop_extent".toList ds then some false else r)
  | [], r, _, _ => by simp [contiguous, inDims]
  | e :: ds, r, hc, hk => by
    have key : ∀ n, inDims n (e :: ds) ↔ n ∈ (splitOn ':' e).map lower ∨ inDims n ds := by
      intro n; simp [inDims]
    rw [contiguous, if_pos (hc e (by simp))]
    rw [contiguous_eq _ (fun x hx => hc x (by simp [hx])) (fun ⟨a, b⟩ => hk ⟨(key _).2 (.inr a), (key _).2 (.inr b)⟩)]
    congr 1
    simp only [key] at hk ⊢
    by_cases a1 : "horizontal_dimension".toList ∈ (splitOn ':' e).map lower <;> by_cases a2 : inDims "horizontal_dimension".toList ds <;>
      by_cases b1 : "horizontal_loop_extent".toList ∈ (splitOn ':' e).map lower <;> by_cases b2 : inDims "horizontal_loop_extent".toList ds <;>
      simp only [a1, a2, b1, b2, or_true, true_or, or_self, if_true, if_false, and_self, not_true_eq_false] at hk ⊢

theorem isName_hd : IsName "horizontal_dimension".toList := ⟨⟨'h', _, rfl, by decide⟩, by decide⟩
theorem isName_le : IsName "horizontal_loop_extent".toList := ⟨⟨'h', _, rfl, by decide⟩, by decide⟩

theorem colon_lower {a : Str} (h : IsLiteral (lower a) ∨ IsName (lower a)) : ':' ∉ a := by
  intro hm
  have : (':' : Char) ∈ lower a := List.mem_map.2 ⟨':', hm, by decide⟩
  exact (PB.word_not ((PB.word_chars h).2 _ this)).2.1 rfl

theorem colon_split {a b a' b' : Str} (ha : ':' ∉ a) (hb : ':' ∉ b) (ha' : ':' ∉ a') (hb' : ':' ∉ b') (h : a ++ ':' :: b = a' ++ ':' :: b') :
    a = a' ∧ b = b' := by
  have := congrArg (splitOn ':') h
  rw [splitOn_append ha, splitOn_append ha', splitOn_none hb, splitOn_none hb'] at this
  simpa using this

theorem invalid_iff {run : Bool} {a b : Str} : invalid run [a, b] = true ↔ Forbidden run (lower a) ∨ Forbidden run (lower b) := by
  unfold invalid Forbidden
  cases run <;> simp only [List.map_cons, List.map_nil, Bool.or_eq_true, List.contains_iff_mem, List.mem_cons, List.not_mem_nil, or_false, if_true,
    Bool.false_eq_true, if_false, true_and, false_and, false_or] <;> constructor <;> intro h
  · rcases h with ((h | h) | (h | h)) | (h | h) <;> simp [h]
  · rcases h with (h | h | h) | (h | h | h) <;> simp [h]
  · rcases h with ((h | h) | (h | h)) | (h | h) <;> simp [h]
  · rcases h with (h | h | h | h) | (h | h | h | h) <;> first | (cases h.1; done) | simp [h]

theorem extent_not_forbidden {run : Bool} {b : Str} (h : lower b = "horizontal_loop_extent".toList) : ¬ Forbidden run (lower b) := by
  rw [h]; unfold Forbidden
  cases run <;> decide

variable {h : List HVar} {run : Bool} {v : Req}

/-- One dimension -/
theorem dimOf_iff (ho : HostOk h) {std d : Str} {char : Bool} {x : Dim}
    (hd : ':' ∈ d → ∃ a b, d = a ++ ':' :: b ∧ (IsLiteral (lower a) ∨ IsName (lower a)) ∧ (IsLiteral (lower b) ∨ IsName (lower b))) :
    dimOf h run char std d = some x ↔ ∃ lo hi part, Asks h run std d lo hi part ∧ x = ⟨lo, hi, !char || part⟩ := by
  have hu := ho.unique
  unfold dimOf
  by_cases hcol : ':' ∈ d
  case neg =>
    rw [if_neg hcol]
    constructor
    · intro h; cases h
    · rintro ⟨lo, hi, part, ha, _⟩
      cases ha <;> exact absurd (by simp) hcol
  obtain ⟨a, b, rfl, wa, wb⟩ := hd hcol
  have ca := colon_lower wa
  have cb := colon_lower wb
  rw [if_pos hcol, splitOn_append ca, splitOn_none cb]
  have hinv : (invalid run [a, b] = true) ↔ _ := invalid_iff
  -- the cases of the specification, for these two texts
  have cases_ask : ∀ lo hi part, Asks h run std (a ++ ':' :: b) lo hi part ↔
      (¬ Forbidden run (lower a) ∧ ¬ Forbidden run (lower b) ∧ (∃ l, Bound h a l) ∧
        ((run = true ∧ lower b = "horizontal_loop_extent".toList ∧
          ((part = true ∧ Whole h std ∧ Chunks h ∧ Names h "horizontal_loop_begin".toList lo ∧ Names h "horizontal_loop_end".toList hi) ∨
           (part = false ∧ (Block h std ∨ (Whole h std ∧ ¬ Chunks h)) ∧ Names h "ccpp_constant_one".toList lo ∧ Names h "horizontal_loop_extent".toList hi))) ∨
         (¬ (run = true ∧ lower b = "horizontal_loop_extent".toList) ∧ part = false ∧ Bound h a lo ∧ Bound h b hi))) := by
    intro lo hi part
    constructor
    · intro ha
      generalize hg : a ++ ':' :: b = g at ha
      cases ha with
      | part h1 h2 h3 h4 h5 h6 h7 h8 h9 h10 =>
        obtain ⟨rfl, rfl⟩ := colon_split ca cb h2 h3 hg
        exact ⟨h4, extent_not_forbidden h5, ⟨_, h6⟩, .inl ⟨h1, h5, .inl ⟨rfl, h7, h8, h9, h10⟩⟩⟩
      | block h1 h2 h3 h4 h5 h6 h7 h8 h9 =>
        obtain ⟨rfl, rfl⟩ := colon_split ca cb h2 h3 hg
        exact ⟨h4, extent_not_forbidden h5, ⟨_, h6⟩, .inl ⟨h1, h5, .inr ⟨rfl, h7, h8, h9⟩⟩⟩
      | plain h1 h2 h3 h4 h5 h6 h7 =>
        obtain ⟨rfl, rfl⟩ := colon_split ca cb h1 h2 hg
        exact ⟨h3, h4, ⟨_, h6⟩, .inr ⟨h5, rfl, h6, h7⟩⟩
    · rintro ⟨f1, f2, ⟨l, hl⟩, ⟨h1, h2, ⟨rfl, h3, h4, h5, h6⟩ | ⟨rfl, h3, h4, h5⟩⟩ | ⟨h1, rfl, h2, h3⟩⟩
      · exact .part h1 ca cb f1 h2 hl h3 h4 h5 h6
      · exact .block h1 ca cb f1 h2 hl h3 h4 h5
      · exact .plain ca cb f1 f2 h1 h2 h3
  have hbounds : ∀ y : Str × Str × Bool, bounds h run std [a, b] = some y ↔
      ((∃ l, Bound h a l) ∧
        ((run = true ∧ lower b = "horizontal_loop_extent".toList ∧
          ((y.2.2 = true ∧ Whole h std ∧ Chunks h ∧ Names h "horizontal_loop_begin".toList y.1 ∧ Names h "horizontal_loop_end".toList y.2.1) ∨
           (y.2.2 = false ∧ (Block h std ∨ (Whole h std ∧ ¬ Chunks h)) ∧ Names h "ccpp_constant_one".toList y.1 ∧ Names h "horizontal_loop_extent".toList y.2.1))) ∨
         (¬ (run = true ∧ lower b = "horizontal_loop_extent".toList) ∧ y.2.2 = false ∧ Bound h a y.1 ∧ Bound h b y.2.1))) := by
    rintro ⟨lo, hi, part⟩
    unfold bounds
    rw [Option.bind_eq_some_iff]
    simp only [bound_iff hu wa]
    by_cases hr : run = true ∧ lower b = "horizontal_loop_extent".toList
    · simp only [hr, and_self, if_true, true_and, not_true_eq_false, false_and, or_false, Option.bind_eq_some_iff]
      constructor
      · rintro ⟨l, hl, w, hw, c, hc, k, rfl, he⟩
        refine ⟨⟨l, hl⟩, ?_⟩
        obtain ⟨w1, w2⟩ := (find_iff hu).1 hw
        have hkind : ¬ (inDims "horizontal_dimension".toList w.dims ∧ inDims "horizontal_loop_extent".toList w.dims) := by
          rw [inDims_iff ho.dims w1 isName_hd, inDims_iff ho.dims w1 isName_le]
          exact fun ⟨x, y⟩ => ho.kind std ⟨⟨w, w1, w2, x⟩, ⟨w, w1, w2, y⟩⟩
        rw [contiguous_eq none (ho.colon w w1) hkind] at hc
        have hwh : k = true → Whole h std := by
          rintro rfl
          refine ⟨w, w1, w2, (inDims_iff ho.dims w1 isName_hd).1 ?_⟩
          by_contra hn
          simp only [hn, if_false, Option.some.injEq] at hc
          split at hc <;> cases hc
        have hbl : k = false → Block h std := by
          rintro rfl
          refine ⟨w, w1, w2, (inDims_iff ho.dims w1 isName_le).1 ?_⟩
          by_contra hn
          simp only [hn, if_false, Option.some.injEq] at hc
          split at hc <;> cases hc
        have hch : (find h "horizontal_loop_begin".toList).isSome = true ↔ Chunks h := by
          rw [Option.isSome_iff_exists]
          exact ⟨fun ⟨x, hx⟩ => ⟨x, (find_iff hu).1 hx⟩, fun ⟨x, hx⟩ => ⟨x, (find_iff hu).2 hx⟩⟩
        split at he
        · next hcc =>
          left
          simp only [Option.bind_eq_some_iff, Option.map_eq_some_iff, Prod.mk.injEq] at he
          obtain ⟨x, hx, y, hy, rfl, rfl, rfl⟩ := he
          exact ⟨rfl, hwh hcc.2, hch.1 hcc.1, ⟨x, ((find_iff hu).1 hx).1, ((find_iff hu).1 hx).2, rfl⟩, ⟨y, ((find_iff hu).1 hy).1, ((find_iff hu).1 hy).2, rfl⟩⟩
        · next hcc =>
          right
          simp only [Option.bind_eq_some_iff, Option.map_eq_some_iff, Prod.mk.injEq] at he
          obtain ⟨x, hx, y, hy, rfl, rfl, rfl⟩ := he
          refine ⟨rfl, ?_, ⟨x, ((find_iff hu).1 hx).1, ((find_iff hu).1 hx).2, rfl⟩, ⟨y, ((find_iff hu).1 hy).1, ((find_iff hu).1 hy).2, rfl⟩⟩
          cases k with
          | false => exact .inl (hbl rfl)
          | true => exact .inr ⟨hwh rfl, fun hx => hcc ⟨hch.2 hx, rfl⟩⟩
      · rintro ⟨⟨l, hl⟩, hh⟩
        refine ⟨l, hl, ?_⟩
        have hw : Whole h std ∨ Block h std := by
          rcases hh with hh | ⟨_, hh | hh, _⟩
          · exact .inl hh.2.1
          · exact .inr hh
          · exact .inl hh.1
        obtain ⟨w, w1, w2⟩ : ∃ w ∈ h, w.std = std := by
          rcases hw with ⟨w, a1, a2, _⟩ | ⟨w, a1, a2, _⟩ <;> exact ⟨w, a1, a2⟩
        have same : ∀ {w'}, w' ∈ h → w'.std = std → w' = w := fun a1 a2 => by
          have := (find_iff hu).2 ⟨a1, a2⟩
          rw [(find_iff hu).2 ⟨w1, w2⟩] at this
          exact (Option.some.inj this).symm
        have hkind : ¬ (inDims "horizontal_dimension".toList w.dims ∧ inDims "horizontal_loop_extent".toList w.dims) := by
          rw [inDims_iff ho.dims w1 isName_hd, inDims_iff ho.dims w1 isName_le]
          exact fun ⟨x, y⟩ => ho.kind std ⟨⟨w, w1, w2, x⟩, ⟨w, w1, w2, y⟩⟩
        refine ⟨w, (find_iff hu).2 ⟨w1, w2⟩, _, contiguous_eq none (ho.colon w w1) hkind, ?_⟩
        have hwh : Whole h std ↔ inDims "horizontal_dimension".toList w.dims := by
          rw [inDims_iff ho.dims w1 isName_hd]
          exact ⟨fun ⟨w', a1, a2, a3⟩ => same a1 a2 ▸ a3, fun a => ⟨w, w1, w2, a⟩⟩
        have hbl : Block h std ↔ inDims "horizontal_loop_extent".toList w.dims := by
          rw [inDims_iff ho.dims w1 isName_le]
          exact ⟨fun ⟨w', a1, a2, a3⟩ => same a1 a2 ▸ a3, fun a => ⟨w, w1, w2, a⟩⟩
        rcases hh with ⟨rfl, h1, ⟨x, hx⟩, ⟨y, y1, y2, rfl⟩, ⟨z, z1, z2, rfl⟩⟩ | ⟨rfl, h1, ⟨y, y1, y2, rfl⟩, ⟨z, z1, z2, rfl⟩⟩
        · refine ⟨true, by rw [if_pos (hwh.1 h1)], ?_⟩
          rw [if_pos ⟨by rw [(find_iff hu).2 hx]; rfl, rfl⟩, (find_iff hu).2 ⟨y1, y2⟩, (find_iff hu).2 ⟨z1, z2⟩]
          rfl
        · rcases h1 with h1 | ⟨h1, h2⟩
          · have : ¬ Whole h std := fun h' => ho.kind std ⟨h', h1⟩
            refine ⟨false, by rw [if_neg (fun h' => this (hwh.2 h')), if_pos (hbl.1 h1)], ?_⟩
            rw [if_neg (by simp), (find_iff hu).2 ⟨y1, y2⟩, (find_iff hu).2 ⟨z1, z2⟩]
            rfl
          · refine ⟨true, by rw [if_pos (hwh.1 h1)], ?_⟩
            rw [if_neg, (find_iff hu).2 ⟨y1, y2⟩, (find_iff hu).2 ⟨z1, z2⟩]
            · rfl
            · rintro ⟨h3, _⟩
              obtain ⟨x, hx⟩ := Option.isSome_iff_exists.1 h3
              exact h2 ⟨x, (find_iff hu).1 hx⟩
    · have hr' : (run = true ∧ lower b = "horizontal_loop_extent".toList ∧
          ((part = true ∧ Whole h std ∧ Chunks h ∧ Names h "horizontal_loop_begin".toList lo ∧ Names h "horizontal_loop_end".toList hi) ∨
           (part = false ∧ (Block h std ∨ (Whole h std ∧ ¬ Chunks h)) ∧ Names h "ccpp_constant_one".toList lo ∧ Names h "horizontal_loop_extent".toList hi))) ↔ False :=
        ⟨fun hh => hr ⟨hh.1, hh.2.1⟩, False.elim⟩
      simp only [hr, if_false, hr', false_or, not_false_eq_true, true_and, Option.map_eq_some_iff, bound_iff hu wb, Prod.mk.injEq]
      constructor
      · rintro ⟨l, hl, t, ht, rfl, rfl, rfl⟩; exact ⟨⟨_, hl⟩, rfl, hl, ht⟩
      · rintro ⟨_, rfl, h1, h2⟩; exact ⟨_, h1, _, h2, rfl, rfl, rfl⟩
  rw [Option.bind_eq_some_iff]
  constructor
  · rintro ⟨y, hy, hx⟩
    split at hx
    · cases hx
    · next hni =>
      rw [hinv, not_or] at hni
      cases hx
      exact ⟨_, _, _, (cases_ask _ _ _).2 ⟨hni.1, hni.2, (hbounds y).1 hy⟩, rfl⟩
  · rintro ⟨lo, hi, part, ha, rfl⟩
    obtain ⟨f1, f2, hr⟩ := (cases_ask _ _ _).1 ha
    refine ⟨(lo, hi, part), (hbounds _).2 hr, ?_⟩
    rw [if_neg (by rw [hinv, not_or]; exact ⟨f1, f2⟩)]

end Ccpp.SC
