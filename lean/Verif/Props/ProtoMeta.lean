import Verif.Spec.ProtoMeta
import Verif.Props.FortranType
/-!
# C97: the prototype metadata file
-/
namespace Ccpp.Proto

open Ccpp.FDecl (Blank)
open Ccpp.FSub (Begins)
open Ccpp.MF (All2 Trimmed ItemText EntryLine EntryLines BlankLine VarText SectText TableText FileText)

theorem joinWith_eq (c : Char) : ∀ l, joinWith c l = sepJoin c l
  | [] => rfl
  | [_] => rfl
  | t :: u :: us => by rw [joinWith, sepJoin, joinWith_eq c (u :: us)] <;> simp

theorem seq_append {α β : Type} {R : α → β → Nat → Nat → Prop} {as as' : List α} {bs bs' : List β} {n m k : Nat}
    (h : Seq R as bs n m) (h' : Seq R as' bs' m k) : Seq R (as ++ as') (bs ++ bs') n k := by
  induction h with
  | nil => exact h'
  | cons h1 _ ih => exact .cons h1 (ih h')

theorem all2_append {α β : Type} {R : α → β → Prop} {as as' : List α} {bs bs' : List β}
    (h : All2 R as bs) (h' : All2 R as' bs') : All2 R (as ++ as') (bs ++ bs') := by
  induction h with
  | nil => exact h'
  | cons h1 _ ih => exact .cons h1 ih

/-! ## Dimensions -/

/-- The dictionary agrees with the variables seen so far. -/
def DictOf (d : List (Str × Str)) (earlier : List FVar) : Prop :=
  d = (earlier.map fun v => (v.lname, v.std)).reverse ++ [("1".toList, "ccpp_constant_one".toList)]

theorem lookup_dict : ∀ (earlier : List FVar) (p : Str),
    lookup ((earlier.map fun v => (v.lname, v.std)).reverse ++ [("1".toList, "ccpp_constant_one".toList)]) p =
      match (earlier.reverse.find? fun v => v.lname == p) with
      | some v => some v.std
      | none => if p = "1".toList then some "ccpp_constant_one".toList else none := by
  intro earlier p
  rw [← List.map_reverse]
  generalize earlier.reverse = l
  induction l with
  | nil =>
    unfold lookup
    by_cases h : p = "1".toList
    · subst h; rfl
    · have : ("1".toList == p) = false := by simpa using fun e => h e.symm
      simp only [List.map_nil, List.nil_append, List.find?_cons, this, List.find?_nil, Option.map_none, if_neg h]
  | cons v l ih =>
    unfold lookup at ih ⊢
    rw [List.map_cons, List.cons_append, List.find?_cons, List.find?_cons]
    cases hv : v.lname == p with
    | true => rfl
    | false => exact ih

theorem part_is {d : List (Str × Str)} {earlier : List FVar} (hd : DictOf d earlier) (p : Str) (n : Nat) :
    let r := match lookup d p with
      | some s => if p.isEmpty then uniqueName n else (s, n)
      | none => uniqueName n
    Part earlier p r.1 n r.2 := by
  unfold DictOf at hd
  subst hd
  simp only [lookup_dict]
  cases hf : earlier.reverse.find? fun v => v.lname == p with
  | some v =>
    simp only
    have hp : v.lname = p := by have := List.find?_some hf; simpa using this
    obtain ⟨_, a, b, e, hb⟩ := List.find?_eq_some_iff_append.1 hf
    split
    · next he =>
      refine .invented p n (Or.inl (by simpa using he))
    · next he =>
      subst hp
      refine .known b.reverse a.reverse v n ?_ (by simpa using he) ?_
      · rw [← List.reverse_reverse earlier, e]; simp
      · intro w hw
        have := hb w (List.mem_reverse.1 hw)
        simpa using this
  | none =>
    have hn : ∀ v ∈ earlier, v.lname ≠ p := by
      intro v hv
      have := List.find?_eq_none.1 hf v (List.mem_reverse.2 hv)
      simpa using this
    simp only
    by_cases h1 : p = "1".toList
    · subst h1
      rw [if_pos rfl]
      exact .one n hn
    · rw [if_neg h1]
      exact .invented p n (Or.inr ⟨h1, hn⟩)

theorem parts_are {d : List (Str × Str)} {earlier : List FVar} (hd : DictOf d earlier) : ∀ (ps : List Str) (n : Nat),
    Seq (Part earlier) ps (dimParts d ps n).1 n (dimParts d ps n).2
  | [], n => .nil n
  | p :: ps, n => .cons (part_is hd p n) (parts_are hd ps _)

theorem splitOn_join (c : Char) : ∀ (s : Str), s = sepJoin c (Chk.splitOn c s) ∧ Chk.splitOn c s ≠ [] ∧
    ∀ p ∈ Chk.splitOn c s, c ∉ p
  | [] => ⟨rfl, by simp [Chk.splitOn], by simp [Chk.splitOn]⟩
  | x :: s => by
    obtain ⟨h1, h2, h3⟩ := splitOn_join c s
    rw [Chk.splitOn]
    cases hs : Chk.splitOn c s with
    | nil => exact absurd hs h2
    | cons t ts =>
      rw [hs] at h1 h3
      by_cases hx : x = c
      · rw [if_pos hx]
        refine ⟨?_, by simp, ?_⟩
        · rw [sepJoin, ← h1, hx]
          · rfl
          · simp
        · intro p hp
          rcases List.mem_cons.1 hp with rfl | hp
          · simp
          · exact h3 p hp
      · rw [if_neg hx]
        refine ⟨?_, by simp, ?_⟩
        · cases ts with
          | nil => rw [sepJoin]; rw [sepJoin] at h1; rw [← h1]
          | cons u us =>
            rw [sepJoin] at h1 ⊢
            · rw [List.cons_append, ← h1]
            · simp
            · simp
        · intro p hp
          rcases List.mem_cons.1 hp with rfl | hp
          · intro hm
            rcases List.mem_cons.1 hm with e | hm
            · exact hx e.symm
            · exact h3 t List.mem_cons_self hm
          · exact h3 p (List.mem_cons_of_mem _ hp)

theorem dims_are {d : List (Str × Str)} {earlier : List FVar} (hd : DictOf d earlier) : ∀ (ds : List Str) (n : Nat),
    Seq (Dim earlier) ds (dimList d ds n).1 n (dimList d ds n).2
  | [], n => .nil n
  | x :: ds, n => by
    obtain ⟨h1, h2, h3⟩ := splitOn_join ':' x
    exact .cons ⟨_, _, h1, h2, h3, parts_are hd _ n, joinWith_eq _ _⟩ (dims_are hd ds _)

/-! ## Clean values -/

theorem dec_clean (n : Nat) : '|' ∉ VD.dec n := by
  unfold VD.dec
  split
  · decide
  · intro hm
    obtain ⟨d, hd, e⟩ := List.mem_map.1 (List.mem_reverse.1 hm)
    have : ∀ k < 10, Nat.digitChar k ≠ '|' := by decide
    exact this d (Nat.digits_lt_base (by decide) hd) e

theorem sepJoin_mem {c x : Char} : ∀ {l : List Str}, x ∈ sepJoin c l → x = c ∨ ∃ t ∈ l, x ∈ t
  | [], h => by cases h
  | [t], h => Or.inr ⟨t, List.mem_cons_self, h⟩
  | t :: u :: us, h => by
    rw [sepJoin] at h
    · rcases List.mem_append.1 h with h | h
      · exact Or.inr ⟨t, List.mem_cons_self, h⟩
      · rcases List.mem_cons.1 h with h | h
        · exact Or.inl h
        · rcases sepJoin_mem h with h | ⟨t', ht, h⟩
          · exact Or.inl h
          · exact Or.inr ⟨t', List.mem_cons_of_mem _ ht, h⟩
    · simp

theorem seq_right {α β : Type} {R : α → β → Nat → Nat → Prop} {P : β → Prop} (hR : ∀ a b n m, R a b n m → P b)
    {as : List α} {bs : List β} {n m : Nat} (h : Seq R as bs n m) : ∀ b ∈ bs, P b := by
  induction h with
  | nil => simp
  | cons h1 _ ih =>
    intro b hb
    rcases List.mem_cons.1 hb with rfl | hb
    · exact hR _ _ _ _ h1
    · exact ih b hb

theorem part_clean {earlier : List FVar} (hc : ∀ v ∈ earlier, CleanVar v) {p t : Str} {n m : Nat}
    (h : Part earlier p t n m) : '|' ∉ t := by
  cases h with
  | one => decide
  | known a b v n e => exact (hc v (by rw [e]; simp)).std.2
  | invented =>
    intro hm
    rcases List.mem_append.1 hm with hm | hm
    · exact absurd hm (by decide)
    · exact dec_clean _ hm

theorem dim_clean {earlier : List FVar} (hc : ∀ v ∈ earlier, CleanVar v) {p t : Str} {n m : Nat}
    (h : Dim earlier p t n m) : '|' ∉ t := by
  obtain ⟨parts, texts, _, _, _, hs, rfl⟩ := h
  intro hm
  rcases sepJoin_mem hm with h | ⟨t, ht, hm⟩
  · exact absurd h (by decide)
  · exact seq_right (P := fun t => '|' ∉ t) (fun _ _ _ _ h => part_clean hc h) hs t ht hm

theorem clean_lower {x : Str} (h : Clean x) : Clean (lower x) := by
  refine ⟨⟨?_, ?_⟩, ?_⟩
  · intro c hc
    unfold lower at hc
    rw [List.head?_map] at hc
    obtain ⟨d, hd, rfl⟩ := Option.map_eq_some_iff.1 hc
    rw [FDecl.toLower_ws]; exact h.1.1 d hd
  · intro c hc
    unfold lower at hc
    rw [List.getLast?_map] at hc
    obtain ⟨d, hd, rfl⟩ := Option.map_eq_some_iff.1 hc
    rw [FDecl.toLower_ws]; exact h.1.2 d hd
  · intro hm
    unfold lower at hm
    obtain ⟨d, hd, e⟩ := List.mem_map.1 hm
    rw [FDecl.toLower_eq '|' (by decide)] at e
    exact h.2 (e ▸ hd)

theorem clean_paren {x : Str} (h : '|' ∉ x) : Clean ("(".toList ++ x ++ ")".toList) := by
  refine ⟨⟨?_, ?_⟩, ?_⟩
  · intro c hc
    have : c = '(' := (Option.some.inj hc).symm
    subst this; decide
  · intro c hc
    rw [List.getLast?_append] at hc
    have : c = ')' := (Option.some.inj hc).symm
    subst this; decide
  · intro hm
    rcases List.mem_append.1 hm with hm | hm
    · rcases List.mem_append.1 hm with hm | hm
      · exact absurd hm (by decide)
      · exact h hm
    · exact absurd hm (by decide)

/-! ## Lines -/

theorem blank_sp (n : Nat) : Blank (List.replicate n ' ') := by
  intro c hc
  rw [List.eq_of_mem_replicate hc]; rfl

theorem item {k v : Str} (a b : Nat) (hk : Trimmed k) (h1 : '=' ∉ k) (h2 : '|' ∉ k) (hl : lower k = k) (hv : Clean v)
    (c : Nat) : ItemText (List.replicate a ' ' ++ k ++ List.replicate b ' ' ++ '=' :: (' ' :: v ++ List.replicate c ' ')) (k, v) := by
  have := ItemText.mk (blank_sp a) (blank_sp b) (blank_sp 1) (blank_sp c) hk hv.1 h1 h2 hv.2
  rw [hl] at this
  exact this

/-- A line that begins with a letter is not blank. -/
theorem not_blank (a : Nat) {x : Char} {r : Str} (hx : isWs x = false) (h1 : x ≠ '#') (h2 : x ≠ ';') :
    ¬ BlankLine (List.replicate a ' ' ++ x :: r) := by
  rintro (h | ⟨b, c, r', e, hb, hc⟩)
  · cases a <;> cases h
  · induction a generalizing b with
    | zero =>
      cases b with
      | nil =>
        have : x = c := by injection e
        subst this
        rcases hc with hc | hc
        · exact h1 hc
        · exact h2 hc
      | cons y b =>
        have : x = y := by injection e
        subst this
        rw [hb x List.mem_cons_self] at hx
        cases hx
    | succ a ih =>
      cases b with
      | nil =>
        have : ' ' = c := by injection e
        subst this
        rcases hc with hc | hc <;> exact absurd hc (by decide)
      | cons y b =>
        refine ih b ?_ fun z hz => hb z (List.mem_cons_of_mem _ hz)
        injection e

theorem line1 {x : Char} {k v : Str} (a b : Nat) (hx : isWs x = false) (h1 : x ≠ '#') (h2 : x ≠ ';')
    (hk : Trimmed (x :: k)) (h3 : '=' ∉ x :: k) (h4 : '|' ∉ x :: k) (hl : lower (x :: k) = x :: k) (hv : Clean v) :
    EntryLine (List.replicate a ' ' ++ (x :: k) ++ List.replicate b ' ' ++ '=' :: (' ' :: v)) [(x :: k, v)] := by
  have h := item a b hk h3 h4 hl hv 0
  rw [List.replicate_zero, List.append_nil] at h
  refine EntryLine.items (its := [_]) (by simp) ?_ (.cons h .nil)
  show ¬ BlankLine (_ ++ _ ++ _ ++ _)
  rw [List.append_assoc, List.append_assoc]
  exact not_blank a hx h1 h2

theorem trimmed_word {s : Str} (h : (s.all fun c => !isWs c) = true) : Trimmed s := by
  have := List.all_eq_true.1 h
  refine ⟨fun c hc => ?_, fun c hc => ?_⟩
  · have := this c (List.mem_of_mem_head? hc)
    simpa using this
  · have := this c (List.mem_of_getLast? hc)
    simpa using this

/-- The lines of a list of entries. -/
theorem entryLines_append {a b : List Str} {es fs : List (Str × Str)} (h : EntryLines a es) (h' : EntryLines b fs) :
    EntryLines (a ++ b) (es ++ fs) := by
  induction h with
  | nil => exact h'
  | cons h1 _ ih => rw [List.append_assoc]; exact .cons h1 ih

theorem entryLines_blank {b : List Str} (h : ∀ l ∈ b, BlankLine l) : EntryLines b [] := by
  induction b with
  | nil => exact .nil
  | cons l b ih =>
    exact .cons (es := []) (.blank (h l List.mem_cons_self)) (ih fun x hx => h x (List.mem_cons_of_mem _ hx))

theorem entryLines_one {l : Str} {es : List (Str × Str)} (h : EntryLine l es) : EntryLines [l] es := by
  have := EntryLines.cons h .nil
  rwa [List.append_nil] at this

theorem line_std {v : Str} (h : Clean v) : EntryLine ("  standard_name = ".toList ++ v) [("standard_name".toList, v)] :=
  line1 (x := 's') (k := "tandard_name".toList) 2 1 rfl (by decide) (by decide) (trimmed_word (by decide)) (by decide)
    (by decide) (by decide) h
theorem line_units {v : Str} (h : Clean v) : EntryLine ("  units = ".toList ++ v) [("units".toList, v)] :=
  line1 (x := 'u') (k := "nits".toList) 2 1 rfl (by decide) (by decide) (trimmed_word (by decide)) (by decide)
    (by decide) (by decide) h
theorem line_type {v : Str} (h : Clean v) : EntryLine ("  type = ".toList ++ v) [("type".toList, v)] :=
  line1 (x := 't') (k := "ype".toList) 2 1 rfl (by decide) (by decide) (trimmed_word (by decide)) (by decide)
    (by decide) (by decide) h
theorem line_dims {v : Str} (h : Clean v) : EntryLine ("  dimensions = ".toList ++ v) [("dimensions".toList, v)] :=
  line1 (x := 'd') (k := "imensions".toList) 2 1 rfl (by decide) (by decide) (trimmed_word (by decide)) (by decide)
    (by decide) (by decide) h
theorem line_intent {v : Str} (h : Clean v) : EntryLine ("  intent = ".toList ++ v) [("intent".toList, v)] :=
  line1 (x := 'i') (k := "ntent".toList) 2 1 rfl (by decide) (by decide) (trimmed_word (by decide)) (by decide)
    (by decide) (by decide) h
theorem line_name1 {v : Str} (h : Clean v) : EntryLine ("  name = ".toList ++ v) [("name".toList, v)] :=
  line1 (x := 'n') (k := "ame".toList) 2 1 rfl (by decide) (by decide) (trimmed_word (by decide)) (by decide)
    (by decide) (by decide) h
theorem line_name2 {v : Str} (h : Clean v) : EntryLine ("  name  = ".toList ++ v) [("name".toList, v)] :=
  line1 (x := 'n') (k := "ame".toList) 2 2 rfl (by decide) (by decide) (trimmed_word (by decide)) (by decide)
    (by decide) (by decide) h
theorem line_type2 {v : Str} (h : Clean v) : EntryLine ("  type  = ".toList ++ v) [("type".toList, v)] :=
  line1 (x := 't') (k := "ype".toList) 2 2 rfl (by decide) (by decide) (trimmed_word (by decide)) (by decide)
    (by decide) (by decide) h

theorem line_kind {t k : Str} (ht : Clean t) (hk : Clean k) :
    EntryLine ("  type = ".toList ++ t ++ " | kind = ".toList ++ k) [("type".toList, t), ("kind".toList, k)] := by
  have h1 := item (k := "type".toList) 2 1 (trimmed_word (by decide)) (by decide) (by decide) (by decide) ht 1
  have h2 := item (k := "kind".toList) 1 1 (trimmed_word (by decide)) (by decide) (by decide) (by decide) hk 0
  have e : "  type = ".toList ++ t ++ " | kind = ".toList ++ k =
      MF.barJoin [List.replicate 2 ' ' ++ "type".toList ++ List.replicate 1 ' ' ++ '=' :: (' ' :: t ++ List.replicate 1 ' '),
        List.replicate 1 ' ' ++ "kind".toList ++ List.replicate 1 ' ' ++ '=' :: (' ' :: k ++ List.replicate 0 ' ')] := by
    rw [MF.barJoin]
    · simp [MF.barJoin, List.replicate]
    · simp
  rw [e]
  refine EntryLine.items (by simp) ?_ (.cons h1 (.cons h2 .nil))
  rw [← e, List.append_assoc, List.append_assoc]
  exact not_blank 2 (x := 't') (r := "ype = ".toList ++ (t ++ (" | kind = ".toList ++ k))) rfl (by decide) (by decide)

theorem typeLine_is {v : FVar} (h : CleanVar v) : EntryLine (typeLine v) (typeEntries v) := by
  unfold typeLine typeEntries
  by_cases he : some v.type = v.kind
  · rw [if_pos he, if_pos he.symm]
    exact line_type h.type
  · rw [if_neg he, if_neg fun e => he e.symm]
    cases hk : v.kind with
    | none =>
      simp only [List.append_nil]
      exact line_type (clean_lower h.type)
    | some k =>
      cases k with
      | nil =>
        simp only [List.isEmpty_nil, if_pos, List.append_nil]
        exact line_type (clean_lower h.type)
      | cons x k =>
        simp only [List.isEmpty_cons, Bool.false_eq_true, if_false]
        rw [← List.append_assoc]
        exact line_kind (clean_lower h.type) (clean_lower (h.kind _ hk))

theorem unitsText_eq (o : Option Str) : (match o with
    | some u => if u.isEmpty then "enter_units".toList else u
    | none => "enter_units".toList) = unitsText o := by
  cases o with
  | none => rfl
  | some u => cases u <;> rfl

theorem unitsText_clean {o : Option Str} (h : ∀ u, o = some u → Clean u) : Clean (unitsText o) := by
  have he : Clean "enter_units".toList := ⟨trimmed_word (by decide), by decide⟩
  cases o with
  | none => exact he
  | some u =>
    unfold unitsText
    simp only
    split
    · exact he
    · exact h u rfl

/-! ## Variables -/

theorem var_is (scheme : Bool) {d : List (Str × Str)} {before : List FVar} (hd : DictOf d before) {v : FVar}
    (hv : CleanVar v) (hb : ∀ w ∈ before, CleanVar w) (n : Nat) :
    ∃ doc, VarText (varLines scheme d v n).1 doc ∧ VarIs scheme before v doc n (varLines scheme d v n).2.2 ∧
      DictOf (varLines scheme d v n).2.1 (before ++ [v]) := by
  have hd' : DictOf ((v.lname, v.std) :: d) (before ++ [v]) := by
    unfold DictOf at hd ⊢
    rw [hd]; simp
  have hs := dims_are hd' v.dims n
  have hc : ∀ w ∈ before ++ [v], CleanVar w := by
    intro w hw
    rcases List.mem_append.1 hw with hw | hw
    · exact hb w hw
    · rw [List.mem_singleton.1 hw]; exact hv
  have hcl : '|' ∉ sepJoin ',' (dimList ((v.lname, v.std) :: d) v.dims n).1 := by
    intro hm
    rcases sepJoin_mem hm with h | ⟨t, ht, hm⟩
    · exact absurd h (by decide)
    · exact seq_right (P := fun t => '|' ∉ t) (fun _ _ _ _ h => dim_clean hc h) hs t ht hm
  refine ⟨⟨.plain v.lname, _⟩, ?_, ⟨rfl, _, hs, rfl⟩, hd'⟩
  unfold varLines
  simp only [joinWith_eq]
  refine ⟨_, _, rfl, ?_, ?_⟩
  · have := MF.VarLine.plain (blank_sp 1) hv.lname (blank_sp 1)
    simpa [List.replicate] using this
  · have h1 := entryLines_one (line_std hv.std)
    have h2 := entryLines_one (line_units (unitsText_clean hv.units))
    rw [← unitsText_eq] at h2
    have h3 := entryLines_one (typeLine_is hv)
    have h4 := entryLines_one (line_dims (clean_paren hcl))
    have h5 : EntryLines (if scheme then ["  intent = ".toList ++ v.intent.getD "None".toList] else [])
        (if scheme then [("intent".toList, v.intent.getD "None".toList)] else []) := by
      cases scheme with
      | false => exact .nil
      | true =>
        refine entryLines_one (line_intent ?_)
        cases hi : v.intent with
        | none => exact ⟨trimmed_word (by decide), by decide⟩
        | some i => exact hv.intent i hi
    have := entryLines_append h1 (entryLines_append h2 (entryLines_append h3 (entryLines_append h4 h5)))
    rw [← unitsText_eq, List.append_assoc, List.append_assoc]
    exact this

/-! ## Blank lines between the parts -/

/-- The lines consist of blank lines and parts `R`, also with more blank lines at the end. -/
def Spread {β : Type} (R : List Str → β → Prop) (ls : List Str) (docs : List β) : Prop :=
  ∀ tail, (∀ l ∈ tail, BlankLine l) → ∃ h parts, ls ++ tail = h ++ parts.flatten ∧ (∀ l ∈ h, BlankLine l) ∧
    All2 R parts docs

/-- Blank lines at the end do not matter. -/
def Closed {β : Type} (R : List Str → β → Prop) : Prop :=
  ∀ ls d b, R ls d → (∀ l ∈ b, BlankLine l) → R (ls ++ b) d

theorem spread_nil {β : Type} (R : List Str → β → Prop) : Spread R [] [] :=
  fun tail ht => ⟨tail, [], by simp, ht, .nil⟩

theorem spread_append {β : Type} {R : List Str → β → Prop} {a b : List Str} {c d : List β} (h : Spread R a c)
    (h' : Spread R b d) : Spread R (a ++ b) (c ++ d) := by
  intro tail ht
  obtain ⟨h1, p1, e1, b1, a1⟩ := h' tail ht
  obtain ⟨h2, p2, e2, b2, a2⟩ := h h1 b1
  refine ⟨h2, p2 ++ p1, ?_, b2, all2_append a2 a1⟩
  rw [List.append_assoc, e1, ← List.append_assoc, e2, List.flatten_append, List.append_assoc]

theorem spread_one {β : Type} {R : List Str → β → Prop} (hc : Closed R) {p s : List Str} {d : β}
    (hp : ∀ l ∈ p, BlankLine l) (h : R s d) : Spread R (p ++ s) [d] := by
  intro tail ht
  refine ⟨p, [s ++ tail], by simp, hp, .cons (hc s d tail h ht) .nil⟩

theorem closed_var : Closed VarText := by
  rintro ls d b ⟨l, body, rfl, hl, hb⟩ h
  refine ⟨l, body ++ b, rfl, hl, ?_⟩
  have := entryLines_append hb (entryLines_blank h)
  rwa [List.append_nil] at this

theorem spread_all2 {β : Type} {R : List Str → β → Prop} (hc : Closed R) {parts : List (List Str)} {docs : List β}
    (h : All2 R parts docs) : Spread R parts.flatten docs := by
  induction h with
  | nil => exact spread_nil R
  | cons h1 _ ih => exact spread_append (c := [_]) (spread_one hc (p := []) (by simp) h1) ih

theorem closed_sect : Closed SectText := by
  rintro ls d b ⟨l, hdr, vls, rfl, hl, hh, hv⟩ h
  obtain ⟨g, parts, e, hg, ha⟩ := spread_all2 closed_var hv b h
  refine ⟨l, hdr ++ g, parts, ?_, hl, ?_, ha⟩
  · rw [List.cons_append, List.append_assoc, e, List.append_assoc]
  · have := entryLines_append hh (entryLines_blank hg)
    rwa [List.append_nil] at this

theorem closed_table : Closed TableText := by
  rintro ls d b ⟨l, hdr, vls, rfl, hl, hh, hv⟩ h
  obtain ⟨g, parts, e, hg, ha⟩ := spread_all2 closed_sect hv b h
  refine ⟨l, hdr ++ g, parts, ?_, hl, ?_, ha⟩
  · rw [List.cons_append, List.append_assoc, e, List.append_assoc]
  · have := entryLines_append hh (entryLines_blank hg)
    rwa [List.append_nil] at this

/-! ## Sections and tables -/

theorem vars_are (scheme : Bool) : ∀ (vs : List FVar) (d : List (Str × Str)) (before : List FVar) (n : Nat),
    DictOf d before → (∀ w ∈ before, CleanVar w) → (∀ v ∈ vs, CleanVar v) →
    ∃ docs, Spread VarText (varsLines scheme d vs n).1 docs ∧
      VarsAre scheme before vs docs n (varsLines scheme d vs n).2
  | [], d, before, n, _, _, _ => ⟨[], spread_nil _, .nil before n⟩
  | v :: vs, d, before, n, hd, hb, hv => by
    obtain ⟨doc, h1, h2, h3⟩ := var_is scheme hd (hv v List.mem_cons_self) hb n
    obtain ⟨docs, h4, h5⟩ := vars_are scheme vs _ (before ++ [v]) (varLines scheme d v n).2.2 h3 (by
      intro w hw
      rcases List.mem_append.1 hw with hw | hw
      · exact hb w hw
      · rw [List.mem_singleton.1 hw]; exact hv v List.mem_cons_self) fun w hw => hv w (List.mem_cons_of_mem _ hw)
    exact ⟨doc :: docs, spread_append (c := [doc]) (spread_one closed_var (p := []) (by simp) h1) h4, .cons h2 h5⟩

theorem section_is {sep : Str} (hsep : BlankLine sep) {s : FSection} (ht : Clean s.title) (hy : Clean s.type)
    (hv : ∀ v ∈ s.vars, CleanVar v) (n : Nat) :
    ∃ doc, Spread SectText (sectionLines sep s n).1 [doc] ∧ SectIs s doc n (sectionLines sep s n).2 := by
  obtain ⟨docs, h1, h2⟩ := vars_are (s.type == "scheme".toList) s.vars [("1".toList, "ccpp_constant_one".toList)] [] n
    rfl (by simp) hv
  obtain ⟨g, parts, e, hg, ha⟩ := h1 [] (by simp)
  rw [List.append_nil] at e
  refine ⟨⟨_, docs⟩, ?_, ⟨rfl, h2⟩⟩
  refine spread_one closed_sect (p := [sep]) (by simpa using hsep) ?_
  refine ⟨"[ccpp-arg-table]".toList, ["  name  = ".toList ++ s.title, "  type  = ".toList ++ s.type] ++ g, parts, ?_, ?_, ?_, ha⟩
  · rw [List.append_assoc, ← e]
    rfl
  · exact ⟨[], ['['], "ccpp-arg-table]".toList, rfl, (by simp [Blank]), rfl, [], "ccpp-arg-table".toList, [']'], rfl,
      (by simp [Blank]), (by decide), [], [']'], [], rfl, (by simp [Blank]), rfl, trivial⟩
  · have h := entryLines_append (entryLines_append (entryLines_one (line_name2 ht)) (entryLines_one (line_type2 hy)))
      (entryLines_blank hg)
    simpa using h

theorem sections_are {sep : Str} (hsep : BlankLine sep) : ∀ (ss : List FSection) (n : Nat),
    (∀ s ∈ ss, Clean s.title ∧ Clean s.type ∧ ∀ v ∈ s.vars, CleanVar v) →
    ∃ docs, Spread SectText (sectionsLines sep ss n).1 docs ∧ Seq SectIs ss docs n (sectionsLines sep ss n).2
  | [], n, _ => ⟨[], spread_nil _, .nil n⟩
  | s :: ss, n, h => by
    obtain ⟨h1, h2, h3⟩ := h s List.mem_cons_self
    obtain ⟨doc, h4, h5⟩ := section_is hsep h1 h2 h3 n
    obtain ⟨docs, h6, h7⟩ := sections_are hsep ss (sectionLines sep s n).2 fun x hx => h x (List.mem_cons_of_mem _ hx)
    exact ⟨doc :: docs, spread_append (c := [doc]) h4 h6, .cons h5 h7⟩

/-- The sections that continue the table `last`, and the tables after them. -/
def contin (last : Str) (ts : List FTable) : List FSection × List FTable :=
  match merge ts with
  | [] => ([], [])
  | u :: us => if last ≠ [] ∧ u.name = last then (u.sections, us) else ([], u :: us)

theorem merge_cons (t : FTable) (ts : List FTable) :
    merge (t :: ts) = { t with sections := t.sections ++ (contin t.name ts).1 } :: (contin t.name ts).2 := by
  rw [merge]
  unfold contin
  cases merge ts with
  | nil => simp
  | cons u us =>
    simp only
    split
    · rfl
    · simp

theorem contin_cons (last : Str) (t : FTable) (ts : List FTable) : contin last (t :: ts) =
    if last ≠ [] ∧ t.name = last then (t.sections ++ (contin t.name ts).1, (contin t.name ts).2)
    else ([], merge (t :: ts)) := by
  rw [contin, merge_cons]

theorem contin_nil (ts : List FTable) : contin [] ts = ([], merge ts) := by
  unfold contin
  cases merge ts with
  | nil => rfl
  | cons u us => simp

theorem tables_are {sep : Str} (hsep : BlankLine sep) : ∀ (ts : List FTable) (first : Bool) (last : Str) (n : Nat),
    (∀ t ∈ ts, CleanTable t) →
    ∃ A B sdocs tdocs k, (tablesLines sep first last ts n).1 = A ++ B ∧ Spread SectText A sdocs ∧
      Seq SectIs (contin last ts).1 sdocs n k ∧ Spread TableText B tdocs ∧
      Seq TableIs (contin last ts).2 tdocs k (tablesLines sep first last ts n).2
  | [], first, last, n, _ => ⟨[], [], [], [], n, rfl, spread_nil _, .nil n, spread_nil _, .nil n⟩
  | t :: ts, first, last, n, h => by
    obtain ⟨c1, c2, c3⟩ := h t List.mem_cons_self
    obtain ⟨docs, s1, s2⟩ := sections_are hsep t.sections n c3
    have ih := fun f l m => tables_are hsep ts f l m fun x hx => h x (List.mem_cons_of_mem _ hx)
    rw [tablesLines]
    simp only
    rw [contin_cons]
    by_cases hc : last ≠ [] ∧ t.name = last
    · obtain ⟨A, B, sdocs, tdocs, k, e, a1, a2, b1, b2⟩ := ih first last (sectionsLines sep t.sections n).2
      have hn : (last.isEmpty || last != t.name) = false := by
        rw [hc.2]
        cases last with
        | nil => exact absurd rfl hc.1
        | cons => simp
      rw [if_pos hc]
      simp only [hn, Bool.false_eq_true, if_false, List.nil_append]
      refine ⟨(sectionsLines sep t.sections n).1 ++ A, B, docs ++ sdocs, tdocs, k, ?_, spread_append s1 a1, ?_, b1, ?_⟩
      · rw [e, List.append_assoc]
      · rw [hc.2]; exact seq_append s2 a2
      · rw [hc.2]; exact b2
    · obtain ⟨A, B, sdocs, tdocs, k, e, a1, a2, b1, b2⟩ := ih false t.name (sectionsLines sep t.sections n).2
      have hn : (last.isEmpty || last != t.name) = true := by
        cases last with
        | nil => rfl
        | cons x l =>
          have : x :: l ≠ t.name := fun e => hc ⟨by simp, e.symm⟩
          simp [this]
      rw [if_neg hc, merge_cons]
      simp only [hn, if_true]
      obtain ⟨g, parts, e2, hg, ha⟩ := spread_append s1 a1 [] (by simp)
      rw [List.append_nil] at e2
      let doc : MF.TableDoc := ⟨[("name".toList, t.name), ("type".toList, t.type)], docs ++ sdocs⟩
      have hT : TableText ("[ccpp-table-properties]".toList :: (["  name = ".toList ++ t.name, "  type = ".toList ++ t.type] ++
          ((sectionsLines sep t.sections n).1 ++ A))) doc := by
        refine ⟨"[ccpp-table-properties]".toList, ["  name = ".toList ++ t.name, "  type = ".toList ++ t.type] ++ g, parts, ?_, ?_, ?_, ha⟩
        · rw [e2, List.append_assoc]
        · exact ⟨[], ['['], "ccpp-table-properties]".toList, rfl, (by simp [Blank]), rfl, [], "ccpp-table-properties".toList,
            [']'], rfl, (by simp [Blank]), (by decide), [], [']'], [], rfl, (by simp [Blank]), rfl, trivial⟩
        · have h := entryLines_append (entryLines_append (entryLines_one (line_name1 c1)) (entryLines_one (line_type c2)))
            (entryLines_blank hg)
          show EntryLines _ [("name".toList, t.name), ("type".toList, t.type)]
          simpa using h
      refine ⟨[], (if first then [] else [sep]) ++ ("[ccpp-table-properties]".toList ::
          (["  name = ".toList ++ t.name, "  type = ".toList ++ t.type] ++ ((sectionsLines sep t.sections n).1 ++ A))) ++ B,
        [], doc :: tdocs, n, ?_, spread_nil _, .nil n, ?_, ?_⟩
      · rw [e]; simp
      · refine spread_append (c := [doc]) (spread_one closed_table ?_ hT) b1
        cases first <;> simp [hsep]
      · exact .cons ⟨rfl, seq_append s2 a2⟩ b2

/-- **C97**. The prototype metadata file describes the parsed tables: it is a metadata file (see C62) with a document for
each table (tables of the same name that follow each other are one table), with its sections, variables and their
properties. -/
theorem C97_prototype_partial (tables : List FTable) (sep : Str) (n : Nat) (hsep : BlankLine sep)
    (h : ∀ t ∈ tables, CleanTable t) :
    ∃ docs m, FileText (writeMetadataFile tables sep n) docs ∧ Seq TableIs (merge tables) docs n m := by
  obtain ⟨A, B, sdocs, tdocs, k, e, a1, a2, b1, b2⟩ := tables_are hsep tables true [] n h
  rw [contin_nil] at a2 b2
  cases a2
  obtain ⟨g, parts, e1, hg, ha⟩ := b1 [] (by simp)
  obtain ⟨g2, parts2, e2, hg2, ha2⟩ := a1 g hg
  cases ha2
  refine ⟨tdocs, _, ⟨g2, parts, ?_, hg2, ha⟩, b2⟩
  rw [List.append_nil] at e1
  unfold writeMetadataFile
  rw [e, e1, ← List.append_assoc, e2]; simp

/-! ## The hypotheses are met -/

theorem clean_word {s : Str} (h : (s.all fun c => !isWs c && c != '|') = true) : Clean s := by
  have h := List.all_eq_true.1 h
  refine ⟨trimmed_word (List.all_eq_true.2 fun c hc => ?_), fun hm => ?_⟩
  · have := h c hc
    rw [Bool.and_eq_true] at this
    exact this.1
  · exact absurd (h _ hm) (by decide)

/-- A variable of the examples. -/
def exVar (l s : String) (t : String) (k : Option String) (d : List String) : FVar :=
  ⟨l.toList, s.toList, none, t.toList, k.map (·.toList), d.map (·.toList), some "in".toList⟩

/-- A scheme, whose second variable is not the last. -/
def exTables : List FTable :=
  [⟨"hello".toList, "scheme".toList, [⟨"hello_run".toList, "scheme".toList,
    [exVar "nlev" "enter_standard_name_1" "INTEGER" none [],
     exVar "temp" "enter_standard_name_2" "REAL" (some "kind_phys") ["1:nlev", "ntrac"],
     exVar "ntrac" "enter_standard_name_3" "INTEGER" none []]⟩]⟩,
   ⟨"hello".toList, "scheme".toList, [⟨"hello_init".toList, "scheme".toList, []⟩]⟩]

theorem ex_clean : ∀ t ∈ exTables, CleanTable t := by
  have hn : ∀ x ∈ ["nlev", "temp", "ntrac"], Chk.IsName x.toList := by
    intro x hx
    simp only [List.mem_cons, List.not_mem_nil, or_false] at hx
    rcases hx with rfl | rfl | rfl <;> exact ⟨_, _, rfl, by decide, by decide⟩
  have hv : ∀ v ∈ [exVar "nlev" "enter_standard_name_1" "INTEGER" none [],
     exVar "temp" "enter_standard_name_2" "REAL" (some "kind_phys") ["1:nlev", "ntrac"],
     exVar "ntrac" "enter_standard_name_3" "INTEGER" none []], CleanVar v := by
    intro v hv
    simp only [List.mem_cons, List.not_mem_nil, or_false] at hv
    rcases hv with rfl | rfl | rfl
    all_goals
      refine ⟨hn _ (by simp), clean_word (by decide), (fun u h => by cases h), clean_word (by decide), fun k h => ?_, fun i h => ?_⟩
      · cases h <;> exact clean_word (by decide)
      · cases h; exact clean_word (by decide)
  intro t ht
  simp only [exTables, List.mem_cons, List.not_mem_nil, or_false] at ht
  rcases ht with rfl | rfl
  · refine ⟨clean_word (by decide), clean_word (by decide), fun s hs => ?_⟩
    rw [List.mem_singleton.1 hs]
    exact ⟨clean_word (by decide), clean_word (by decide), hv⟩
  · refine ⟨clean_word (by decide), clean_word (by decide), fun s hs => ?_⟩
    rw [List.mem_singleton.1 hs]
    exact ⟨clean_word (by decide), clean_word (by decide), by simp⟩

example : ∃ docs m, FileText (writeMetadataFile exTables "#####".toList 0) docs ∧ Seq TableIs (merge exTables) docs 0 m :=
  C97_prototype_partial _ _ _ (Or.inr ⟨[], '#', "####".toList, rfl, (by simp [Blank]), Or.inl rfl⟩) ex_clean

/-- The two tables are one table with two sections. -/
example : (merge exTables).length = 1 ∧ ((merge exTables).map (·.sections.length)) = [2] := by decide

/-- A dimension that is declared after the array has no standard name: the prototype has an invented name that no
variable has. -/
theorem C97_later_violated :
    ∃ sect ∈ exTables.flatMap (·.sections), ∃ v ∈ sect.vars, ∃ w ∈ sect.vars, w.lname ∈ v.dims ∧
      "  dimensions = (ccpp_constant_one:enter_standard_name_1,enter_standard_name_4)".toList ∈
        writeMetadataFile exTables "#####".toList 3 ∧
      ∀ u ∈ sect.vars, u.std ≠ "enter_standard_name_4".toList := by
  refine ⟨_, List.mem_flatMap.2 ⟨_, List.mem_cons_self, List.mem_cons_self⟩, exVar "temp" "enter_standard_name_2" "REAL" (some "kind_phys") ["1:nlev", "ntrac"], ?_,
    exVar "ntrac" "enter_standard_name_3" "INTEGER" none [], ?_, ?_, ?_, ?_⟩
  · simp
  · simp
  · decide
  · decide +kernel
  · decide +kernel

end Ccpp.Proto
