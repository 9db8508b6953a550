import Verif.Props.VarText
import Verif.Props.FortranLines
/-!
# C90: the declaration written for a variable declares it
-/
namespace Ccpp.VText

open Ccpp.FDecl

/-! ## The attributes -/

/-- The texts of the attributes, with the comma before each. -/
def joined (as : List (Str × Attr)) : Str := as.flatMap fun p => ',' :: p.1

/-- The text between the type and the double colon holds these attributes. -/
def Seg (istr : Str) (attrs : List Attr) : Prop :=
  Plain istr ∧ ((Blank istr ∧ attrs = []) ∨ ((∃ c ∈ istr, isWs c = false) ∧ ∀ b e, Blank b → Blank e →
    ∃ as : List (Str × Attr), as.map (·.2) = attrs ∧ (∀ p ∈ as, AttrText p.1 p.2) ∧ ',' :: (b ++ istr ++ e) = joined as))

theorem b1 : Blank [' '] := by unfold Blank; decide

theorem blank_of {s : Str} (h : s.all isWs = true) : Blank s := List.all_eq_true.1 h

theorem flagText {b e : Str} (hb : Blank b) (he : Blank e) (w : Str) (h : w ∈ flags) (hl : lower w = w) :
    AttrText (b ++ w ++ e) (.flag w) := by
  have := AttrText.flag (p := b) (w := w) (q := e) hb (hl.symm ▸ h) he
  rwa [hl] at this

theorem intentAttr {b e i : Str} (hb : Blank b) (he : Blank e) (hi : i ≠ [] ∧ ∀ c ∈ i, c.isAlpha = true) :
    AttrText (b ++ ("intent(".toList ++ i ++ ")".toList) ++ e) (.intent (lower i)) := by
  have := AttrText.intent (p := b) (w := "intent".toList) (g := []) (a := []) (v := i) (b := []) (q := e) hb (by decide)
    blank_nil blank_nil hi.2 hi.1 blank_nil he
  simpa using this

theorem seg_none {s : Str} (h : Blank s) : Seg s [] := ⟨plain_blank h, .inl ⟨h, rfl⟩⟩

theorem plain_intent {i : Str} (hi : ∀ c ∈ i, c.isAlpha = true) : Plain ("intent(".toList ++ i ++ ")".toList) :=
  plain_append (plain_append (plain_of (by decide)) (plain_alpha hi)) (plain_of (by decide))

theorem seg_intent {i e' : Str} (hi : i ≠ [] ∧ ∀ c ∈ i, c.isAlpha = true) (he' : Blank e') :
    Seg ("intent(".toList ++ i ++ ")".toList ++ e') [.intent (lower i)] := by
  refine ⟨plain_append (plain_intent hi.2) (plain_blank he'), .inr ⟨⟨'i', by simp, by decide⟩, fun b e hb he => ?_⟩⟩
  refine ⟨[(b ++ ("intent(".toList ++ i ++ ")".toList) ++ (e' ++ e), .intent (lower i))], rfl, ?_, ?_⟩
  · intro p hp
    rw [List.mem_singleton.1 hp]
    exact intentAttr hb (blank_append he' he) hi
  · simp [joined]

theorem seg_alloc : Seg "allocatable         ".toList [.flag "allocatable".toList] := by
  refine ⟨plain_of (by decide), .inr ⟨⟨'a', by decide, by decide⟩, fun b e hb he => ?_⟩⟩
  refine ⟨[(b ++ "allocatable".toList ++ ("         ".toList ++ e), .flag "allocatable".toList)], rfl, ?_, ?_⟩
  · intro p hp
    rw [List.mem_singleton.1 hp]
    exact flagText hb (blank_append (blank_of (by decide)) he) _ (by decide) (by decide)
  · simp [joined]

theorem seg_allocTarget : Seg ("allocatable,".toList ++ "  target".toList) [.flag "allocatable".toList, .flag "target".toList] := by
  refine ⟨plain_of (by decide), .inr ⟨⟨'a', by decide, by decide⟩, fun b e hb he => ?_⟩⟩
  refine ⟨[(b ++ "allocatable".toList ++ [], .flag "allocatable".toList),
    ("  ".toList ++ "target".toList ++ e, .flag "target".toList)], rfl, ?_, ?_⟩
  · intro p hp
    rcases List.mem_cons.1 hp with rfl | hp
    · exact flagText hb blank_nil _ (by decide) (by decide)
    · rw [List.mem_singleton.1 hp]
      exact flagText (blank_of (by decide)) he _ (by decide) (by decide)
  · simp [joined]

theorem seg_allocIntent {i e' : Str} (hi : i ≠ [] ∧ ∀ c ∈ i, c.isAlpha = true) (he' : Blank e') :
    Seg ("allocatable, ".toList ++ ("intent(".toList ++ i ++ ")".toList ++ e')) [.flag "allocatable".toList, .intent (lower i)] := by
  refine ⟨plain_append (plain_of (by decide)) (plain_append (plain_intent hi.2) (plain_blank he')),
    .inr ⟨⟨'a', by simp, by decide⟩, fun b e hb he => ?_⟩⟩
  refine ⟨[(b ++ "allocatable".toList ++ [], .flag "allocatable".toList),
    (" ".toList ++ ("intent(".toList ++ i ++ ")".toList) ++ (e' ++ e), .intent (lower i))], rfl, ?_, ?_⟩
  · intro p hp
    rcases List.mem_cons.1 hp with rfl | hp
    · exact flagText hb blank_nil _ (by decide) (by decide)
    · rw [List.mem_singleton.1 hp]
      exact intentAttr (blank_of (by decide)) (blank_append he' he) hi
  · simp [joined]

theorem seg_optional {i e' : Str} (hi : i ≠ [] ∧ ∀ c ∈ i, c.isAlpha = true) (he' : Blank e') :
    Seg ("intent(".toList ++ i ++ ")".toList ++ ",".toList ++ e' ++ "target, optional ".toList)
      [.intent (lower i), .flag "target".toList, .flag "optional".toList] := by
  refine ⟨plain_append (plain_append (plain_append (plain_intent hi.2) (plain_of (by decide))) (plain_blank he')) (plain_of (by decide)),
    .inr ⟨⟨'i', by simp, by decide⟩, fun b e hb he => ?_⟩⟩
  refine ⟨[(b ++ ("intent(".toList ++ i ++ ")".toList) ++ [], .intent (lower i)),
    (e' ++ "target".toList ++ [], .flag "target".toList),
    (" ".toList ++ "optional".toList ++ (" ".toList ++ e), .flag "optional".toList)], rfl, ?_, ?_⟩
  · intro p hp
    rcases List.mem_cons.1 hp with rfl | hp
    · exact intentAttr hb blank_nil hi
    rcases List.mem_cons.1 hp with rfl | hp
    · exact flagText he' blank_nil _ (by decide) (by decide)
    · rw [List.mem_singleton.1 hp]
      exact flagText (blank_of (by decide)) (blank_append (blank_of (by decide)) he) _ (by decide) (by decide)
  · simp [joined]

theorem strip_some {s : Str} (h : ∃ c ∈ s, isWs c = false) : (strip s).isEmpty = false := by
  rw [Bool.eq_false_iff]
  intro h2
  have h3 := (FL.lstrip_nil_iff s).1 ((FL.strip_nil_iff s).1 (List.isEmpty_iff.1 h2))
  obtain ⟨c, hc, hw⟩ := h
  rw [h3 c hc] at hw; cases hw

theorem strip_none {s : Str} (h : Blank s) : (strip s).isEmpty = true :=
  List.isEmpty_iff.2 ((FL.strip_nil_iff s).2 ((FL.lstrip_nil_iff s).2 h))

/-- The text between the type and the double colon. -/
def middle (tg : Bool) (bl istr : Str) : Str :=
  (if tg then ", target".toList else []) ++ (if (strip istr).isEmpty then " ".toList else ",".toList) ++ bl ++ istr ++ " ".toList

theorem middle_ok {istr bl : Str} {attrs : List Attr} (tg : Bool) (h : Seg istr attrs) (hbl : Blank bl) :
    Plain (middle tg bl istr) ∧ ∃ gap, Blank gap ∧ ∃ as : List (Str × Attr),
      as.map (·.2) = (if tg then [.flag "target".toList] else []) ++ attrs ∧ (∀ p ∈ as, AttrText p.1 p.2) ∧
      middle tg bl istr = gap ++ joined as := by
  obtain ⟨hpl, h⟩ := h
  refine ⟨?_, ?_⟩
  · unfold middle
    refine plain_append (plain_append (plain_append (plain_append ?_ ?_) (plain_blank hbl)) hpl) (plain_of (by decide))
    · split <;> exact plain_of (by decide)
    · split <;> exact plain_of (by decide)
  · rcases h with ⟨hb, rfl⟩ | ⟨hne, hseg⟩
    · unfold middle
      rw [strip_none hb]
      have hbb : Blank (" ".toList ++ bl ++ istr ++ " ".toList) :=
        blank_append (blank_append (blank_append (blank_of (by decide)) hbl) hb) (blank_of (by decide))
      cases tg with
      | false => exact ⟨_, hbb, [], rfl, by simp, by simp [joined]⟩
      | true =>
        refine ⟨[], blank_nil, [(" ".toList ++ "target".toList ++ (" ".toList ++ bl ++ istr ++ " ".toList), .flag "target".toList)], rfl, ?_, ?_⟩
        · intro p hp
          rw [List.mem_singleton.1 hp]
          exact flagText (blank_of (by decide)) hbb _ (by decide) (by decide)
        · simp [joined]
    · obtain ⟨as, h1, h2, h3⟩ := hseg bl " ".toList hbl (blank_of (by decide))
      unfold middle
      rw [strip_some hne]
      cases tg with
      | false =>
        refine ⟨[], blank_nil, as, by simpa using h1, h2, ?_⟩
        rw [List.nil_append, ← h3]; simp
      | true =>
        refine ⟨[], blank_nil, (" ".toList ++ "target".toList ++ [], .flag "target".toList) :: as, by simpa using h1, ?_, ?_⟩
        · intro p hp
          rcases List.mem_cons.1 hp with rfl | hp
          · exact flagText (blank_of (by decide)) blank_nil _ (by decide) (by decide)
          · exact h2 p hp
        · have : joined ((" ".toList ++ "target".toList ++ [], Attr.flag "target".toList) :: as) =
            ',' :: (" ".toList ++ "target".toList) ++ joined as := by simp [joined]
          rw [this, ← h3]; simp

theorem regroup (T tg c bl i b d : Str) : T ++ ((tg ++ c) ++ bl) ++ (i ++ " :: ".toList ++ b ++ d) =
    T ++ (tg ++ c ++ bl ++ i ++ " ".toList) ++ "::".toList ++ (' ' :: (b ++ d)) := by
  have : " :: ".toList = " ".toList ++ ("::".toList ++ [' ']) := rfl
  rw [this]
  simp only [List.append_assoc, List.cons_append, List.nil_append]

theorem statement_eq (v : Info) (a : Args) (dims istr : Str) : ∃ bl, Blank bl ∧
    statement v a dims istr = typeText v ++ middle v.target bl istr ++ "::".toList ++ (' ' :: (baseName v ++ dims)) := by
  unfold statement typeText middle
  simp only []
  split
  · split
    · exact ⟨_, blank_blanks _, regroup _ _ _ _ _ _ _⟩
    · exact ⟨_, blank_blanks _, regroup _ _ _ _ _ _ _⟩
  · split
    · exact ⟨_, blank_blanks _, regroup _ _ _ _ _ _ _⟩
    · exact ⟨_, blank_blanks _, regroup _ _ _ _ _ _ _⟩

theorem statement_declares {v : Info} {a : Args} {n dims istr : Str} {attrs : List Attr} {d : Option Str} (hg : Good v a n)
    (hd : (dims = [] ∧ d = none) ∨ ∃ t, dims = '(' :: (t ++ [')']) ∧ d = some dims ∧ DimText t ∧ '!' ∉ t ∧ ¬ [':', ':'] <:+: t)
    (hs : Seg istr attrs) :
    Declares (statement v a dims istr) (typeOf v) ((if v.target then [.flag "target".toList] else []) ++ attrs) [(n, d)] := by
  obtain ⟨bl, hbl, e⟩ := statement_eq v a dims istr
  obtain ⟨hb, hn⟩ := baseName_ok hg.name
  obtain ⟨hT, hTb⟩ := typeText_ok hg.type
  obtain ⟨hE, hEb, hEd⟩ := entity_ok hn hd
  obtain ⟨hM, gap, hgap, as, h1, h2, h3⟩ := middle_ok v.target hs hbl
  rw [e, hb, h3, ← h1]
  rw [h3] at hM
  have key := Declares.mk (ind := []) (tail := []) (es := [(' ' :: (n ++ dims), n, d)]) blank_nil hT hgap h2
    (by intro x hx; rw [List.mem_singleton.1 hx]; exact hE)
    (by
      have := plain_bang hM
      unfold joined at this
      intro hm
      rcases List.mem_append.1 hm with hm | hm
      · rcases List.mem_append.1 hm with hm | hm
        · exact hTb hm
        · exact this hm
      · exact hEb hm)
    (dd_pre (plain_colon hM) (dd_one ':')) hEd (.inl blank_nil)
  simpa [commaJoin, joined] using key

end Ccpp.VText
