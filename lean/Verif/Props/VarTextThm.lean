import Verif.Props.VarTextMain
/-!
# C90: theorems
-/
namespace Ccpp.VText

open Ccpp.FDecl

theorem isOut_iff (i : Str) : isOut i = true ↔ Output i := by
  unfold isOut Output
  have hl : ∀ a b : Str, lower (a ++ b) = lower a ++ lower b := fun a b => by unfold lower; simp
  rw [beq_iff_eq]
  constructor
  · intro h
    refine ⟨lower ((i.reverse.drop 3).reverse), ?_⟩
    rw [← h, ← hl, ← List.reverse_append, List.take_append_drop, List.reverse_reverse]
  · rintro ⟨p, h⟩
    have h2 : (lower i).reverse = lower i.reverse := by unfold lower; rw [List.map_reverse]
    have h3 : lower i.reverse = "out".toList.reverse ++ p.reverse := by rw [← h2, h, List.reverse_append]
    have h4 : lower ((i.reverse.take 3).reverse) = ((lower i.reverse).take 3).reverse := by
      unfold lower; rw [List.map_reverse, List.map_take]
    rw [h4, h3]
    rfl

theorem dims_ok {v : Info} {a : Args} {n dims : Str} (hg : Good v a n) (h : dimText v a = some dims) :
    ((dims = [] ∧ dimsOf v a = none) ∨ ∃ t, dims = '(' :: (t ++ [')']) ∧ dimsOf v a = some dims ∧ DimText t ∧ '!' ∉ t ∧
      ¬ [':', ':'] <:+: t) ∧ (dims.isEmpty = true ↔ v.rank = 0) := by
  unfold dimText at h
  unfold dimsOf
  by_cases hr : v.rank = 0
  · rw [if_pos hr] at h ⊢
    cases h
    exact ⟨.inl ⟨rfl, rfl⟩, by simp [hr]⟩
  · rw [if_neg hr] at h ⊢
    by_cases ha : (a.allocatable || a.dummy) = true
    · rw [if_pos ha] at h
      rw [if_pos (by simpa using ha)]
      cases h
      have h2 := colons_text v.rank
      rw [colons_eq _ hr]
      exact ⟨.inr ⟨_, rfl, rfl, h2⟩, by simp [hr]⟩
    · rw [if_neg ha] at h
      rw [if_neg (by simpa using ha)]
      obtain ⟨t, e, h2⟩ := hg.dims dims h
      exact ⟨.inr ⟨t, e, by rw [h], h2⟩, by simp [hr, e]⟩

/-- The attributes besides those for the target property, in the order in which they are written. -/
def attrList (v : Info) (a : Args) (intent : Option Str) : List Attr :=
  if v.prot && a.dummy then [.intent "in".toList]
  else if a.allocatable then
    if v.rank ≠ 0 ∨ v.polymorphic = true then
      if a.target then [.flag "allocatable".toList, .flag "target".toList] else [.flag "allocatable".toList]
    else []
  else match intent with
    | some i =>
      if isOut i && v.allocatable then [.flag "allocatable".toList, .intent (lower i)]
      else if v.optional then [.intent (lower i), .flag "target".toList, .flag "optional".toList]
      else [.intent (lower i)]
    | none => []

theorem intentStr_seg {v : Info} {a : Args} {dims : Str} (hd : dims.isEmpty = true ↔ v.rank = 0) (intent : Option Str)
    (hi : ∀ i, intent = some i → i ≠ [] ∧ ∀ c ∈ i, c.isAlpha = true) :
    Seg (intentStr v a dims intent) (attrList v a intent) := by
  unfold intentStr attrList
  by_cases h1 : (v.prot && a.dummy) = true
  · rw [if_pos h1, if_pos h1]
    exact seg_intent (i := "in".toList) (e' := "   ".toList) ⟨by decide, by decide⟩ (blank_of (by decide))
  rw [if_neg h1, if_neg h1]
  by_cases h2 : a.allocatable = true
  · rw [if_pos h2, if_pos h2]
    have e : ((!dims.isEmpty || v.polymorphic) = true) ↔ (v.rank ≠ 0 ∨ v.polymorphic = true) := by
      rw [Bool.or_eq_true, Bool.not_eq_true', ← Bool.not_eq_true, hd]
    by_cases h3 : v.rank ≠ 0 ∨ v.polymorphic = true
    · rw [if_pos (e.2 h3), if_pos h3]
      split
      · exact seg_allocTarget
      · exact seg_alloc
    · rw [if_neg (fun h => h3 (e.1 h)), if_neg h3]
      exact seg_none (blank_blanks _)
  rw [if_neg h2, if_neg h2]
  cases intent with
  | none =>
    simp only []
    split <;> exact seg_none (blank_blanks _)
  | some i =>
    simp only []
    have hi := hi i rfl
    unfold intentText
    split
    · have := seg_allocIntent (e' := blanks (5 - i.length)) hi (blank_blanks _)
      simpa using this
    · split
      · exact seg_optional hi (blank_blanks _)
      · have := seg_intent (e' := blanks (5 - i.length)) hi (blank_blanks _)
        simpa using this

/-- What is written, in terms of the intent that is used. -/
theorem writeDef_some {v : Info} {a : Args} {line : Str} (h : writeDef v a = some (some line)) :
    v.constant = false ∧ (v.prot && a.allocatable) = false ∧ ∃ dims j, dimText v a = some dims ∧
      line = statement v a dims (intentStr v a dims j) ∧
      (a.dummy = false → j = none) ∧ (a.dummy = true → j.isSome ∧ (v.prot = false → j = intentOf v a)) ∧
      (∀ i, j = some i → v.intent = some i ∨ a.addIntent = some i) := by
  unfold writeDef at h
  cases hc : v.constant with
  | true => rw [hc] at h; simp at h
  | false =>
    rw [hc, if_neg (by decide)] at h
    cases hd : dimText v a with
    | none => rw [hd] at h; cases h
    | some dims =>
      rw [hd] at h
      simp only [Option.bind_some] at h
      cases hp : (v.prot && a.allocatable) with
      | true => rw [hp] at h; simp at h
      | false =>
        rw [hp, if_neg (by decide)] at h
        refine ⟨rfl, rfl, dims, ?_⟩
        cases hdm : a.dummy with
        | false =>
          rw [hdm] at h
          simp only [Bool.false_and, Bool.false_eq_true, if_false, Option.some.injEq] at h
          exact ⟨none, rfl, h.symm, fun _ => rfl, fun h => by (cases h), fun i h => by (cases h)⟩
        | true =>
          rw [hdm] at h
          simp only [Bool.true_and, if_true] at h
          cases hi : v.intent with
          | some i =>
            rw [hi] at h
            simp only [Option.isNone_some, Bool.false_eq_true, if_false, Option.some.injEq] at h
            refine ⟨some i, rfl, h.symm, fun h => by (cases h), fun _ => ⟨rfl, fun hp => ?_⟩, fun _ h => .inl h⟩
            unfold intentOf; rw [hp, hi]; simp
          | none =>
            rw [hi] at h
            simp only [Option.isNone_none, if_true] at h
            cases ha : a.addIntent with
            | none => rw [ha] at h; cases h
            | some i =>
              rw [ha] at h
              simp only [Option.some.injEq] at h
              refine ⟨some i, rfl, h.symm, fun h => by (cases h), fun _ => ⟨rfl, fun hp => ?_⟩, fun _ h => .inr h⟩
              unfold intentOf; rw [hp, hi, ha]; simp

theorem declares_list {v : Info} {a : Args} {n line : Str} (hg : Good v a n) (h : writeDef v a = some (some line)) :
    ∃ j, Declares line (typeOf v) ((if v.target then [.flag "target".toList] else []) ++ attrList v a j) [(n, dimsOf v a)] ∧
      (v.prot && a.allocatable) = false ∧
      (a.dummy = false → j = none) ∧ (a.dummy = true → j.isSome ∧ (v.prot = false → j = intentOf v a)) := by
  obtain ⟨_, hp, dims, j, hd, e, h1, h2, h3⟩ := writeDef_some h
  obtain ⟨hd1, hd2⟩ := dims_ok hg hd
  refine ⟨j, ?_, hp, h1, h2⟩
  rw [e]
  exact statement_declares hg hd1 (intentStr_seg hd2 j fun i hi => hg.intent i (h3 i hi))

theorem attrList_mem {v : Info} {a : Args} {j : Option Str} (hp : (v.prot && a.allocatable) = false)
    (h1 : a.dummy = false → j = none) (h2 : a.dummy = true → j.isSome ∧ (v.prot = false → j = intentOf v a)) :
    ∀ x ∈ attrList v a j, Wanted v a x := by
  intro x hx
  unfold attrList at hx
  cases hpd : (v.prot && a.dummy) with
  | true =>
    rw [hpd, if_pos rfl, List.mem_singleton] at hx
    rw [Bool.and_eq_true] at hpd
    rw [hx]
    exact Wanted.intent (i := "in".toList) hpd.2 (by unfold intentOf; rw [if_pos hpd.1])
  | false =>
    rw [hpd, if_neg (by decide)] at hx
    cases hal : a.allocatable with
    | true =>
      rw [hal, if_pos rfl] at hx
      split at hx
      · split at hx
        · rename_i ht
          rcases List.mem_cons.1 hx with rfl | hx
          · exact .allocatable hal
          · rw [List.mem_singleton.1 hx]
            exact .target (.inr (.inl ht))
        · rw [List.mem_singleton.1 hx]
          exact .allocatable hal
      · cases hx
    | false =>
      rw [hal, if_neg (by decide)] at hx
      cases j with
      | none => cases hx
      | some i =>
        have hd : a.dummy = true := by
          cases hd : a.dummy with
          | true => rfl
          | false => cases h1 hd
        have hpf : v.prot = false := by rw [hd, Bool.and_true] at hpd; exact hpd
        have hi := ((h2 hd).2 hpf).symm
        simp only [] at hx
        have hint : Wanted v a (.intent (lower i)) := .intent hd hi
        split at hx
        · rename_i ho
          rw [Bool.and_eq_true] at ho
          rcases List.mem_cons.1 hx with rfl | hx
          · exact .output hd ho.2 hpf hi ((isOut_iff i).1 ho.1)
          · rw [List.mem_singleton.1 hx]; exact hint
        · split at hx
          · rename_i ho
            rcases List.mem_cons.1 hx with rfl | hx
            · exact hint
            rcases List.mem_cons.1 hx with rfl | hx
            · exact .target (.inr (.inr ⟨hd, ho⟩))
            · rw [List.mem_singleton.1 hx]; exact .optional hd ho
          · rw [List.mem_singleton.1 hx]; exact hint

theorem attrIntent_target (tg : Bool) (l : List Attr) :
    attrIntent ((if tg then [.flag "target".toList] else []) ++ l) = attrIntent l := by
  cases tg <;> rfl

theorem attrList_intent {v : Info} {a : Args} {j : Option Str} (hal : a.allocatable = false)
    (h1 : a.dummy = false → j = none) (h2 : a.dummy = true → j.isSome ∧ (v.prot = false → j = intentOf v a)) :
    attrIntent (attrList v a j) = if a.dummy then (intentOf v a).map lower else none := by
  unfold attrList
  cases hd : a.dummy with
  | false => rw [h1 hd, hal]; simp [attrIntent]
  | true =>
    cases hp : v.prot with
    | true => simp [attrIntent, intentOf, hp]; rfl
    | false =>
      obtain ⟨hs, hj⟩ := h2 hd
      have hj := hj hp
      rw [← hj]
      obtain ⟨i, rfl⟩ := Option.isSome_iff_exists.1 hs
      simp only [hal, Bool.false_and, Bool.false_eq_true, if_false, if_true]
      split
      · rfl
      · split <;> rfl

theorem class_or_type (v : Info) (a : Args) (dims istr : Str) (hd : v.ddt = true) :
    (if v.polymorphic then "class(".toList else "type(".toList) ++ v.kind ++ ")".toList <+: statement v a dims istr := by
  obtain ⟨bl, _, e⟩ := statement_eq v a dims istr
  rw [e]
  unfold typeText
  rw [if_pos hd]
  exact ⟨middle v.target bl istr ++ ("::".toList ++ (' ' :: (baseName v ++ dims))), by simp only [List.append_assoc]⟩

/-- The line written for a variable is a declaration of this variable alone, with its type, kind and dimensions; it
has no attribute that is not wanted, it has the target attribute if the variable has, and the right intent unless
the caller asks for an allocatable variable.  A variable of a derived type is written with `class` if it is
polymorphic and with `type` otherwise. -/
theorem C90_declares {v : Info} {a : Args} {n line : Str} (hg : Good v a n) (h : writeDef v a = some (some line)) :
    ∃ attrs, Declares line (typeOf v) attrs [(n, dimsOf v a)] ∧ (∀ x ∈ attrs, Wanted v a x) ∧
      (v.target = true → .flag "target".toList ∈ attrs) ∧
      (a.allocatable = false → attrIntent attrs = if a.dummy then (intentOf v a).map lower else none) ∧
      (v.ddt = true → (if v.polymorphic then "class(".toList else "type(".toList) ++ v.kind ++ ")".toList <+: line) := by
  obtain ⟨j, hd, hp, h1, h2⟩ := declares_list hg h
  refine ⟨_, hd, ?_, ?_, ?_, ?_⟩
  · intro x hx
    rcases List.mem_append.1 hx with hx | hx
    · split at hx
      · rename_i ht
        rw [List.mem_singleton.1 hx]
        exact .target (.inl ht)
      · cases hx
    · exact attrList_mem hp h1 h2 x hx
  · intro ht
    rw [ht]
    simp
  · intro hal
    rw [attrIntent_target]
    exact attrList_intent hal h1 h2
  · intro hdd
    obtain ⟨_, _, dims, j, _, e, _⟩ := writeDef_some h
    rw [e]
    exact class_or_type v a dims _ hdd

/-- In the cases that are handled, the declaration has exactly the attributes that are wanted, each once. -/
theorem C90_attributes_partial {v : Info} {a : Args} {n line : Str} (hg : Good v a n) (hh : Handled v a)
    (h : writeDef v a = some (some line)) :
    ∃ attrs, Declares line (typeOf v) attrs [(n, dimsOf v a)] ∧ attrs.Nodup ∧ ∀ x, x ∈ attrs ↔ Wanted v a x := by
  obtain ⟨j, hd, hp, h1, h2⟩ := declares_list hg h
  refine ⟨_, hd, ?_, fun x => ⟨fun hx => ?_, fun hx => ?_⟩⟩
  · -- no attribute twice
    have hnt : v.target = true → .flag "target".toList ∉ attrList v a j := by
      intro ht hm
      unfold attrList at hm
      split at hm
      · simp at hm
      · split at hm
        · rename_i hal
          split at hm
          · split at hm
            · rename_i hat
              have := (hh.target hat).1 hal
              rw [ht] at this; cases this
            · simp at hm
          · cases hm
        · cases j with
          | none => cases hm
          | some i =>
            simp only [] at hm
            split at hm
            · simp at hm
            · split at hm
              · rename_i ho
                have hdm : a.dummy = true := by
                  cases hdm : a.dummy with
                  | true => rfl
                  | false => cases h1 hdm
                have := (hh.optional hdm ho).2.1
                rw [ht] at this; cases this
              · simp at hm
    have hnd : (attrList v a j).Nodup := by
      unfold attrList
      split
      · simp
      · split
        · split
          · split <;> simp
          · simp
        · cases j with
          | none => simp
          | some i =>
            simp only []
            split
            · simp
            · split <;> simp
    cases ht : v.target with
    | false => simpa using hnd
    | true => simpa using ⟨hnt ht, hnd⟩
  · rcases List.mem_append.1 hx with hx | hx
    · split at hx
      · rename_i ht
        rw [List.mem_singleton.1 hx]
        exact .target (.inl ht)
      · cases hx
    · exact attrList_mem hp h1 h2 x hx
  · -- every wanted attribute is there
    have hdj : a.dummy = true → a.allocatable = false ∧ (v.prot = true ∨ ∃ i, j = some i ∧ intentOf v a = some i ∧ v.prot = false) := by
      intro hdm
      refine ⟨?_, ?_⟩
      · cases hal : a.allocatable with
        | false => rfl
        | true => have := (hh.alloc hal).2; rw [hdm] at this; cases this
      · cases hpv : v.prot with
        | true => exact .inl rfl
        | false =>
          obtain ⟨hs, hj⟩ := h2 hdm
          obtain ⟨i, hi⟩ := Option.isSome_iff_exists.1 hs
          exact .inr ⟨i, hi, by rw [← hj hpv, hi], rfl⟩
    apply List.mem_append.2
    cases hx with
    | @intent i hdm hi =>
      obtain ⟨hal, hpv | ⟨i', hj, hi', hpv⟩⟩ := hdj hdm
      · right
        unfold intentOf at hi
        rw [if_pos hpv] at hi
        cases hi
        unfold attrList
        rw [hpv, hdm]
        simp [lower]
      · right
        rw [hi'] at hi; cases hi
        unfold attrList
        rw [hpv, hal, hj]
        simp only [Bool.false_and, Bool.false_eq_true, if_false]
        split
        · simp
        · split <;> simp
    | allocatable hal =>
      right
      have hpv : v.prot = false := by rw [hal, Bool.and_true] at hp; exact hp
      have h3 := (hh.alloc hal).1
      unfold attrList
      rw [hpv, hal, if_neg (by simp), if_pos rfl, if_pos (h3.imp (fun h => by omega) id)]
      split <;> simp
    | @output i hdm hva hpv hi ho =>
      obtain ⟨hal, hpv' | ⟨i', hj, hi', _⟩⟩ := hdj hdm
      · rw [hpv] at hpv'; cases hpv'
      · right
        rw [hi'] at hi; cases hi
        unfold attrList
        rw [hpv, hal, hj, hva, Bool.false_and, if_neg (by decide), if_neg (by decide)]
        simp only [(isOut_iff i).2 ho, Bool.and_self, if_true]
        exact List.mem_cons_self
    | optional hdm hop =>
      obtain ⟨hal, hpv' | ⟨i, hj, hi, hpv⟩⟩ := hdj hdm
      · have := (hh.optional hdm hop).1; rw [hpv'] at this; cases this
      · right
        unfold attrList
        rw [hpv, hal, hj, hop]
        have : (isOut i && v.allocatable) = false := by
          cases ho : isOut i with
          | false => rfl
          | true => exact (hh.optional hdm hop).2.2 i hi ((isOut_iff i).1 ho)
        simp [this]
    | target ht =>
      rcases ht with ht | ht | ⟨hdm, hop⟩
      · left; rw [ht]; simp
      · cases hal : a.allocatable with
        | false =>
          left
          have : v.target = true := by
            cases hvt : v.target with
            | true => rfl
            | false => have := (hh.target ht).2 hvt; rw [hal] at this; cases this
          rw [this]; simp
        | true =>
          right
          have hpv : v.prot = false := by rw [hal, Bool.and_true] at hp; exact hp
          have h3 := (hh.alloc hal).1
          unfold attrList
          rw [hpv, hal, if_neg (by simp), if_pos rfl, if_pos (h3.imp (fun h => by omega) id), if_pos ht]
          simp
      · obtain ⟨hal, hpv' | ⟨i, hj, hi, hpv⟩⟩ := hdj hdm
        · have := (hh.optional hdm hop).1; rw [hpv'] at this; cases this
        · right
          unfold attrList
          rw [hpv, hal, hj, hop]
          have : (isOut i && v.allocatable) = false := by
            cases ho : isOut i with
            | false => rfl
            | true => exact (hh.optional hdm hop).2.2 i hi ((isOut_iff i).1 ho)
          simp [this]

/-- Nothing is written for a constant of the framework, and only for such a constant. -/
theorem C90_constant (v : Info) (a : Args) : writeDef v a = some none ↔ v.constant = true := by
  unfold writeDef
  rcases v with ⟨c, _, _, _, _, r, p, _, _, _, _, i⟩
  rcases a with ⟨al, _, dm, ai, _, ds⟩
  cases c
  · simp only [Bool.false_eq_true, if_false, iff_false]
    intro h
    rw [Option.bind_eq_some_iff] at h
    obtain ⟨d, _, h⟩ := h
    cases p <;> cases al <;> cases dm <;> cases i <;> cases ai <;> simp at h
  · simp

/-- An error: the dimensions cannot be written, a protected variable is to be allocatable, or a dummy argument has no
intent. -/
theorem C90_error (v : Info) (a : Args) : writeDef v a = none ↔ v.constant = false ∧
    ((v.rank ≠ 0 ∧ a.allocatable = false ∧ a.dummy = false ∧ a.dimstring = none) ∨
     (v.prot = true ∧ a.allocatable = true) ∨ (a.dummy = true ∧ v.intent = none ∧ a.addIntent = none)) := by
  unfold writeDef dimText
  rcases v with ⟨c, _, _, _, _, r, p, _, _, _, _, i⟩
  rcases a with ⟨al, _, dm, ai, _, ds⟩
  cases c
  · by_cases hr : r = 0
    · cases p <;> cases al <;> cases dm <;> cases i <;> cases ai <;> simp [hr]
    · cases p <;> cases al <;> cases dm <;> cases i <;> cases ai <;> cases ds <;> simp [hr]
  · simp

/-- What the parser of Fortran files reads from the written line. -/
theorem C90_read_partial {v : Info} {a : Args} {n line : Str} (hg : Good v a n) (hh : Handled v a)
    (h : writeDef v a = some (some line)) (logger : Bool) :
    ∃ r : VarRec, parseDecl true logger line = some [r] ∧ r.name = n ∧ r.ddt = v.ddt ∧
      (r.type = if v.ddt then v.kind else v.type) ∧ r.kind = (if v.kind = [] ∧ v.ddt = false then none else some v.kind) ∧
      (r.optional = true ↔ a.dummy = true ∧ v.optional = true) ∧
      (r.allocatable = true ↔ Wanted v a (.flag "allocatable".toList)) ∧
      (r.intent = if a.dummy then (intentOf v a).map lower else none) ∧
      r.dims = (dimsOf v a).getD "()".toList := by
  obtain ⟨attrs, hd, hn, hw⟩ := C90_attributes_partial hg hh h
  obtain ⟨j, hd', hp, h1, h2⟩ := declares_list hg h
  refine ⟨_, C59_declaration_partial hd true logger (.inl rfl), rfl, ?_, ?_, ?_, ?_, ?_, ?_, ?_⟩
  · unfold typeOf; cases v.ddt <;> rfl
  · unfold typeOf; cases v.ddt <;> rfl
  · unfold typeOf; cases v.ddt <;> simp
  · show attrs.contains _ = true ↔ _
    rw [List.contains_iff_mem, hw]
    constructor
    · intro h
      cases h with
      | optional h1 h2 => exact ⟨h1, h2⟩
    · rintro ⟨h1, h2⟩; exact .optional h1 h2
  · show attrs.contains _ = true ↔ _
    rw [List.contains_iff_mem, hw]
  · show attrIntent attrs = _
    have hmem : ∀ i, Attr.intent i ∈ attrs ↔ a.dummy = true ∧ (intentOf v a).map lower = some i := by
      intro i
      rw [hw]
      constructor
      · intro h
        cases h with
        | intent h1 h2 => exact ⟨h1, by rw [h2]; rfl⟩
      · rintro ⟨h1, h2⟩
        cases hi : intentOf v a with
        | none => rw [hi] at h2; cases h2
        | some i' => rw [hi] at h2; cases h2; exact .intent h1 hi
    unfold attrIntent
    generalize hl : (attrs.filterMap fun | .intent v => some v | _ => none) = l
    have hm : ∀ i, i ∈ l ↔ Attr.intent i ∈ attrs := by
      intro i
      rw [← hl, List.mem_filterMap]
      constructor
      · rintro ⟨x, hx, e⟩
        cases x with
        | intent u => simp only [Option.some.injEq] at e; rwa [← e]
        | flag u => cases e
        | dims u => cases e
      · intro hx; exact ⟨_, hx, rfl⟩
    cases hdm : a.dummy with
    | false =>
      have : l = [] := by
        cases l with
        | nil => rfl
        | cons x l => have := ((hmem x).1 ((hm x).1 (by simp))).1; rw [hdm] at this; cases this
      rw [this]; rfl
    | true =>
      rw [if_pos rfl]
      cases hg2 : l.getLast? with
      | some i => exact ((hmem i).1 ((hm i).1 (List.mem_of_getLast? hg2))).2.symm
      | none =>
        rw [List.getLast?_eq_none_iff] at hg2
        cases hi : (intentOf v a).map lower with
        | none => rfl
        | some i =>
          have := (hm i).2 ((hmem i).2 ⟨hdm, hi⟩)
          rw [hg2] at this; cases this
  · show (dimsOf v a).getD ((attrDims attrs).getD "()".toList) = _
    have : attrDims attrs = none := by
      unfold attrDims
      rw [List.getLast?_eq_none_iff, List.filterMap_eq_nil_iff]
      intro x hx
      have := (hw x).1 hx
      cases this <;> rfl
    rw [this]; rfl

end Ccpp.VText
