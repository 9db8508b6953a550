import Verif.Spec.VarRef
import Verif.Props.VarTextEx
import Verif.Props.FortranSchemeMain
/-!
# C91: references to variables
-/
namespace Ccpp.VRef

open Ccpp.VText (arrayRef)
open Ccpp.RC (Ref)

abbrev Str := List Char

/-! ## Lists -/

theorem join_eq (sep : Str) : ∀ l, join sep l = sepBy sep l
  | [] => rfl
  | [_] => rfl
  | t :: u :: ts => by
    show t ++ sep ++ join sep (u :: ts) = t ++ sep ++ sepBy sep (u :: ts)
    rw [join_eq sep (u :: ts)]

theorem allSome_iff (f : Str → Option Str) : ∀ (l ts : List Str),
    allSome (l.map f) = some ts ↔ Each (fun x t => f x = some t) l ts
  | [], ts => by
    constructor
    · intro h; cases h; exact .nil
    · intro h; cases h; rfl
  | x :: l, ts => by
    constructor
    · intro h
      cases hx : f x with
      | none => rw [List.map_cons, hx] at h; cases h
      | some t =>
        rw [List.map_cons, hx] at h
        have h : (allSome (l.map f)).map (t :: ·) = some ts := h
        rw [Option.map_eq_some_iff] at h
        obtain ⟨us, h1, rfl⟩ := h
        exact .cons hx ((allSome_iff f l us).1 h1)
    · intro h
      cases h with
      | cons hx h =>
        rw [List.map_cons, hx]
        show (allSome (l.map f)).map _ = _
        rw [(allSome_iff f l _).2 h]; rfl

theorem each_iff {R S : Str → Str → Prop} : ∀ {l ts : List Str}, (∀ x ∈ l, ∀ t, R x t ↔ S x t) → (Each R l ts ↔ Each S l ts)
  | [], ts, _ => by constructor <;> (intro h; cases h; exact .nil)
  | x :: l, ts, h => by
    constructor
    · intro g
      cases g with
      | cons a b => exact .cons ((h x (by simp) _).1 a) ((each_iff fun y hy => h y (by simp [hy])).1 b)
    · intro g
      cases g with
      | cons a b => exact .cons ((h x (by simp) _).2 a) ((each_iff fun y hy => h y (by simp [hy])).2 b)

theorem each_length {R : Str → Str → Prop} {l ts : List Str} (h : Each R l ts) : l.length = ts.length := by
  induction h with
  | nil => rfl
  | cons _ _ ih => simp [ih]

theorem findFirst_iff : ∀ (ds : List Dict) (s t : Str), findFirst ds s = some t ↔ First ds s t
  | [], s, t => by
    constructor
    · intro h; cases h
    · intro h; cases h
  | d :: ds, s, t => by
    unfold findFirst
    cases h : d.find s with
    | none =>
      simp only []
      rw [findFirst_iff ds s t]
      constructor
      · exact .later h
      · intro g
        cases g with
        | here g => rw [h] at g; cases g
        | later _ g => exact g
    | some u =>
      simp only []
      constructor
      · rintro rfl; exact .here h
      · intro g
        cases g with
        | here g => rw [h] at g; exact Option.some.inj g
        | later g _ => rw [h] at g; cases g

theorem loopFirst_iff : ∀ (ds : List Dict) (s t : Str), loopFirst ds s = some t ↔ FirstLoop ds s t
  | [], s, t => by
    constructor
    · intro h; cases h
    · intro h; cases h
  | d :: ds, s, t => by
    unfold loopFirst
    cases h : d.loop s with
    | none =>
      simp only []
      rw [loopFirst_iff ds s t]
      constructor
      · exact .later h
      · intro g
        cases g with
        | here g => rw [h] at g; cases g
        | later _ g => exact g
    | some u =>
      simp only []
      constructor
      · intro e; cases e; exact .here h
      · intro g
        cases g with
        | here g => rw [h] at g; exact g
        | later g _ => rw [h] at g; cases g

theorem splitOn_facts (c : Char) : ∀ s : Str, Chk.splitOn c s ≠ [] ∧ (∀ p ∈ Chk.splitOn c s, c ∉ p) ∧
    sepBy [c] (Chk.splitOn c s) = s
  | [] => by
    refine ⟨by simp [Chk.splitOn], ?_, rfl⟩
    intro p hp
    have : p = [] := by simpa [Chk.splitOn] using hp
    rw [this]; simp
  | x :: s => by
    obtain ⟨h1, h2, h3⟩ := splitOn_facts c s
    unfold Chk.splitOn
    cases hs : Chk.splitOn c s with
    | nil => exact absurd hs h1
    | cons t ts =>
      rw [hs] at h2 h3
      by_cases hx : x = c
      · rw [if_pos hx]
        refine ⟨by simp, ?_, ?_⟩
        · intro p hp
          rcases List.mem_cons.1 hp with rfl | hp
          · simp
          · exact h2 p hp
        · show [] ++ [c] ++ sepBy [c] (t :: ts) = x :: s
          rw [h3, hx]; rfl
      · rw [if_neg hx]
        refine ⟨by simp, ?_, ?_⟩
        · intro p hp
          rcases List.mem_cons.1 hp with rfl | hp
          · intro hm
            rcases List.mem_cons.1 hm with e | hm
            · exact hx e.symm
            · exact h2 t (by simp) hm
          · exact h2 p (by simp [hp])
        · show sepBy [c] ((x :: t) :: ts) = x :: s
          rw [← h3]
          cases ts with
          | nil => rfl
          | cons u us => rfl

theorem splitOn_sepBy (c : Char) : ∀ (ps : List Str), ps ≠ [] → (∀ p ∈ ps, c ∉ p) → Chk.splitOn c (sepBy [c] ps) = ps
  | [], h, _ => absurd rfl h
  | [t], _, h => Chk.splitOn_item c t (h t (by simp))
  | t :: u :: ts, _, h => by
    have : sepBy [c] (t :: u :: ts) = t ++ c :: sepBy [c] (u :: ts) := by
      show t ++ [c] ++ sepBy [c] (u :: ts) = _
      simp
    rw [this, Chk.splitOn_append c t _ (h t (by simp)),
      splitOn_sepBy c (u :: ts) (by simp) fun p hp => h p (List.mem_cons_of_mem _ hp)]

theorem parts_iff (s : Str) (ps : List Str) : ColonParts s ps ↔ ps = Chk.splitOn ':' s := by
  constructor
  · rintro ⟨h1, h2, rfl⟩
    exact (splitOn_sepBy ':' ps h1 h2).symm
  · rintro rfl
    obtain ⟨h1, h2, h3⟩ := splitOn_facts ':' s
    exact ⟨h1, h2, h3.symm⟩

theorem splitOn_one (s : Str) : (Chk.splitOn ':' s).length = 1 ↔ ':' ∉ s := by
  obtain ⟨h1, h2, h3⟩ := splitOn_facts ':' s
  constructor
  · intro h
    obtain ⟨t, e⟩ := List.length_eq_one_iff.1 h
    rw [e] at h2 h3
    have h3 : t = s := h3
    exact h3 ▸ h2 t (by simp)
  · intro h
    rw [Chk.splitOn_item ':' s h]; rfl

/-! ## Subscripts -/

theorem fill_iff : ∀ (subs dims l : List Str), fill subs dims = some (l, []) ↔ Fill subs dims l
  | [], dims, l => by
    constructor
    · intro h; cases h; exact .nil
    · intro h; cases h; rfl
  | s :: subs, dims, l => by
    unfold fill
    by_cases hs : s = [':']
    · rw [if_pos hs]
      cases dims with
      | nil =>
        constructor
        · intro h; cases h
        · intro h
          cases h with
          | keep hn _ => exact absurd hs hn
      | cons d dims =>
        simp only [Option.map_eq_some_iff, Prod.mk.injEq]
        constructor
        · rintro ⟨⟨a, b⟩, h, rfl, rfl⟩
          rw [hs]
          exact .colon ((fill_iff subs dims a).1 h)
        · intro h
          cases h with
          | colon h => exact ⟨(_, []), (fill_iff _ _ _).2 h, rfl, rfl⟩
          | keep hn _ => exact absurd hs hn
    · rw [if_neg hs]
      simp only [Option.map_eq_some_iff, Prod.mk.injEq]
      constructor
      · rintro ⟨⟨a, b⟩, h, rfl, rfl⟩
        exact .keep hs ((fill_iff subs dims a).1 h)
      · intro h
        cases h with
        | colon _ => exact absurd rfl hs
        | keep _ h => exact ⟨(_, []), (fill_iff _ _ _).2 h, rfl, rfl⟩

theorem fill_count : ∀ (subs dims : List Str) (r : List Str × List Str), fill subs dims = some r →
    dims.length = subs.countP (· == [':']) + r.2.length
  | [], dims, r, h => by cases h; simp
  | s :: subs, dims, r, h => by
    unfold fill at h
    by_cases hs : s = [':']
    · rw [if_pos hs] at h
      cases dims with
      | nil => cases h
      | cons d dims =>
        simp only [Option.map_eq_some_iff] at h
        obtain ⟨r', h, rfl⟩ := h
        have := fill_count subs dims r' h
        rw [List.countP_cons_of_pos (by simp [hs])]
        simp only [List.length_cons]; omega
    · rw [if_neg hs] at h
      simp only [Option.map_eq_some_iff] at h
      obtain ⟨r', h, rfl⟩ := h
      have := fill_count subs dims r' h
      rw [List.countP_cons_of_neg (by simpa using hs)]
      exact this

theorem fill_total : ∀ (subs dims : List Str), subs.countP (· == [':']) ≤ dims.length → ∃ r, fill subs dims = some r
  | [], dims, _ => ⟨_, rfl⟩
  | s :: subs, dims, h => by
    unfold fill
    by_cases hs : s = [':']
    · rw [if_pos hs]
      rw [List.countP_cons_of_pos (by simp [hs])] at h
      cases dims with
      | nil => simp at h
      | cons d dims =>
        obtain ⟨r, hr⟩ := fill_total subs dims (by simp at h; omega)
        exact ⟨_, by simp only [hr]; rfl⟩
    · rw [if_neg hs]
      rw [List.countP_cons_of_neg (by simpa using hs)] at h
      obtain ⟨r, hr⟩ := fill_total subs dims h
      exact ⟨_, by simp only [hr]; rfl⟩

theorem Fill.count {subs dims l : List Str} (h : Fill subs dims l) : dims.length = subs.countP (· == [':']) := by
  have := fill_count _ _ _ ((fill_iff _ _ _).2 h)
  simpa using this

theorem arrayRef_plain {n : Str} (h : '(' ∉ n) : arrayRef n = none := by
  unfold arrayRef
  have : RC.scalarRef.dollar n = false := by
    cases hd : RC.scalarRef.dollar n with
    | false => rfl
    | true =>
      exfalso
      apply h
      rcases (VText.dollar_ref _).1 hd with ⟨_, _, _, _, b, r, _, _, e⟩ | ⟨t, e, _, _, _, _, b, r, _, _, e'⟩
      · rw [e]; simp
      · rw [e, e']; simp
  rw [this]; rfl

theorem dropWhile_first {p : Char → Bool} {a b : Str} {c : Char} (ha : ∀ x ∈ a, p x = true) (hc : p c = false) :
    (a ++ c :: b).dropWhile p = c :: b := by
  induction a with
  | nil => simp [hc]
  | cons x a ih => simp [ha x (by simp), ih fun y hy => ha y (by simp [hy])]

theorem takeWhile_first {p : Char → Bool} {a b : Str} {c : Char} (ha : ∀ x ∈ a, p x = true) (hc : p c = false) :
    (a ++ c :: b).takeWhile p = a := by
  induction a with
  | nil => simp [hc]
  | cons x a ih => simp [ha x (by simp), ih fun y hy => ha y (by simp [hy])]

theorem splitOn_lstrip (r : Str) : (Chk.splitOn ',' (lstrip r)).map strip = (Chk.splitOn ',' r).map strip := by
  have hr : r = r.takeWhile isWs ++ lstrip r := (List.takeWhile_append_dropWhile (p := isWs)).symm
  have hb : FDecl.Blank (r.takeWhile isWs) := fun c hc => List.all_eq_true.1 List.all_takeWhile c hc
  conv => rhs; rw [hr]
  exact (FSub.splitOn_left hb _).symm

theorem arrayRef_ref {name n : Str} {subs : List Str} (h : Ref n subs name) (hl : subs.length ≤ 7) :
    ∃ inner, arrayRef name = some (n, inner) ∧ (Chk.splitOn ',' inner).map strip = subs := by
  have hd : RC.scalarRef.dollar name = true := (VText.dollar_ref _).2 (.inl ⟨n, subs, hl, h⟩)
  have hf := VText.ref_first h
  unfold arrayRef
  rw [hd, if_pos rfl, hf]
  refine ⟨_, rfl, ?_⟩
  rw [splitOn_lstrip]
  obtain ⟨hn, b, r, hb, hr, rfl⟩ := h
  have h1 : ∀ x ∈ n ++ b, (x != '(') = true := by
    intro x hx
    rcases List.mem_append.1 hx with hx | hx
    · have := (RC.wordC_not (RC.name_chars hn x hx)).2.1; simpa using this
    · have := (RC.white_chars (hb x hx)).1; simpa using this
  rw [List.append_assoc, List.cons_append, dropWhile_first h1 (by decide)]
  show (Chk.splitOn ',' ((r ++ [')']).takeWhile (· != ')'))).map strip = subs
  rw [takeWhile_first (fun x hx => by have := ((RC.dims_chars hr).2 x hx).2; simpa using this) (by decide)]
  exact RC.dims_split hr

/-- A local name is plain, or a reference to part of an array. -/
def Named (name : Str) : Prop := '(' ∉ name ∨ ∃ n subs, Ref n subs name ∧ subs.length ≤ 7

theorem ref_paren {name n : Str} {subs : List Str} (h : Ref n subs name) : '(' ∈ name := by
  obtain ⟨_, b, r, _, _, rfl⟩ := h; simp

/-- The name and the dimensions of a reference: in an array reference, the dimensions take the places of the colons. -/
theorem C91_subscripts {name : Str} (hn : Named name) (dims : List Str) (n : Str) (l : List Str) :
    handleArrayRef name dims = some (n, l) ↔ AllDims name dims n l := by
  unfold handleArrayRef
  rcases hn with hn | ⟨m, subs, hr, hl⟩
  · rw [arrayRef_plain hn]
    simp only [Option.some.injEq, Prod.mk.injEq]
    constructor
    · rintro ⟨rfl, rfl⟩; exact .plain hn
    · intro h
      cases h with
      | plain _ => exact ⟨rfl, rfl⟩
      | ref hr _ _ => exact absurd (ref_paren hr) hn
  · obtain ⟨inner, ha, hs⟩ := arrayRef_ref hr hl
    rw [ha]
    simp only [hs]
    constructor
    · intro h
      split at h
      · cases h
      · rename_i hc
        rw [Option.map_eq_some_iff] at h
        obtain ⟨⟨a, b⟩, h, e⟩ := h
        cases e
        have hcount := fill_count _ _ _ h
        have hb : b = [] := by
          apply List.eq_nil_of_length_eq_zero
          simp only [gt_iff_lt, Nat.not_lt] at hc
          simp only [] at hcount
          omega
        rw [hb] at h
        exact .ref hr hl ((fill_iff _ _ _).1 h)
    · intro h
      cases h with
      | plain hp => exact absurd (ref_paren hr) hp
      | ref hr' _ hf =>
        obtain ⟨rfl, rfl⟩ := RC.ref_unique hr hr' (.inl rfl)
        rw [if_neg (by rw [hf.count]; omega), (fill_iff _ _ _).2 hf]
        rfl

/-- A reference is refused if and only if the number of colons is not the number of dimensions. -/
theorem C91_mismatch {name n : Str} {subs : List Str} (hr : Ref n subs name) (hl : subs.length ≤ 7) (dims : List Str) :
    handleArrayRef name dims = none ↔ dims.length ≠ subs.count [':'] := by
  obtain ⟨inner, ha, hs⟩ := arrayRef_ref hr hl
  unfold handleArrayRef List.count
  rw [ha]
  simp only [hs]
  constructor
  · intro h hc
    rw [if_neg (by rw [hc]; omega)] at h
    obtain ⟨r, h'⟩ := fill_total subs dims (by rw [hc])
    rw [h'] at h; cases h
  · intro h
    split
    · rfl
    · rename_i hc
      cases hf : fill subs dims with
      | none => rfl
      | some r =>
        have := fill_count _ _ _ hf
        simp only [gt_iff_lt, Nat.not_lt] at hc
        exact absurd (by omega) h

/-! ## Lists of dimensions -/

theorem entry_iff (dicts : List Dict) (e s : Bool) (dim t : Str) : dimEntry dicts e s dim = some t ↔ Entry dicts e s dim t := by
  unfold dimEntry
  simp only []
  have hc : ((e || (Chk.splitOn ':' dim).length == 1) = true) ↔ (e = true ∨ ':' ∉ dim) := by
    rw [Bool.or_eq_true, beq_iff_eq, splitOn_one]
  by_cases h : e = true ∨ ':' ∉ dim
  · rw [if_pos (hc.2 h)]
    have names : ((allSome ((Chk.splitOn ':' dim).map (findFirst dicts))).map (join [':']) = some t) ↔
        ∃ ps ts, ColonParts dim ps ∧ Each (First dicts) ps ts ∧ t = sepBy [':'] ts := by
      rw [Option.map_eq_some_iff]
      constructor
      · rintro ⟨ts, h1, rfl⟩
        exact ⟨_, ts, (parts_iff _ _).2 rfl, (each_iff fun x _ u => findFirst_iff dicts x u).1 ((allSome_iff _ _ _).1 h1), join_eq _ _⟩
      · rintro ⟨ps, ts, h1, h2, rfl⟩
        rw [(parts_iff _ _).1 h1] at h2
        exact ⟨ts, (allSome_iff _ _ _).2 ((each_iff fun x _ u => findFirst_iff dicts x u).2 h2), join_eq _ _⟩
    cases hl : (if s then loopFirst dicts dim else none) with
    | some u =>
      cases s with
      | false => simp at hl
      | true =>
        rw [if_pos rfl] at hl
        have hl' := (loopFirst_iff _ _ _).1 hl
        simp only [Option.some.injEq]
        constructor
        · rintro rfl; exact .loop h rfl hl'
        · intro g
          cases g with
          | range h1 h2 => exact (h.elim (fun x => by rw [h1] at x; cases x) fun x => absurd h2 x)
          | loop _ _ g => rw [(loopFirst_iff _ _ _).2 g] at hl; exact (Option.some.inj hl).symm
          | names _ g _ _ => exact (g.elim (fun x => by cases x) fun x => absurd hl' (x _))
    | none =>
      simp only []
      rw [names]
      have hno : s = false ∨ ∀ t, ¬ FirstLoop dicts dim t := by
        cases s with
        | false => exact .inl rfl
        | true =>
          rw [if_pos rfl] at hl
          refine .inr fun t g => ?_
          rw [(loopFirst_iff _ _ _).2 g] at hl; cases hl
      constructor
      · rintro ⟨ps, ts, h1, h2, rfl⟩; exact .names h hno h1 h2
      · intro g
        cases g with
        | range h1 h2 => exact (h.elim (fun x => by rw [h1] at x; cases x) fun x => absurd h2 x)
        | loop _ h1 g =>
          rcases hno with h2 | h2
          · rw [h1] at h2; cases h2
          · exact absurd g (h2 _)
        | names _ _ h1 h2 => exact ⟨_, _, h1, h2, rfl⟩
  · rw [if_neg fun g => h (hc.1 g)]
    simp only [Option.some.injEq]
    constructor
    · rintro rfl
      refine .range ?_ ?_
      · cases e with
        | false => rfl
        | true => exact absurd (.inl rfl) h
      · by_cases hm : ':' ∈ dim
        · exact hm
        · exact absurd (.inr hm) h
    · intro g
      cases g with
      | range => rfl
      | loop g => exact absurd g h
      | names g => exact absurd g h

/-- A text in parentheses, if there is one. -/
def parens (pre : Str) (sep : Str) (ts : List Str) : Str := if ts = [] then pre else pre ++ '(' :: (sepBy sep ts ++ [')'])

/-- The list of dimensions: what `Entry` says for each dimension of the reference, with commas between; an error if
there is none. -/
theorem C91_dimensions {name : Str} (hn : Named name) (dims : List Str) (dicts : List Dict) (e s : Bool) (t : Str) :
    callDimstring name dims (some dicts) e s = some t ↔
      ∃ n l ts, AllDims name dims n l ∧ Each (Entry dicts e s) l ts ∧ t = if l = [] then [] else '(' :: (sepBy [','] ts ++ [')']) := by
  unfold callDimstring
  have fin : ∀ (l ts : List Str), Each (Entry dicts e s) l ts →
      (if ts.isEmpty then [] else "(".toList ++ join ",".toList ts ++ ")".toList) = if l = [] then [] else '(' :: (sepBy [','] ts ++ [')']) := by
    intro l ts h
    rw [join_eq]
    cases h with
    | nil => rfl
    | cons _ _ => simp
  constructor
  · intro h
    cases hh : handleArrayRef name dims with
    | none => rw [hh] at h; cases h
    | some r =>
      rw [hh] at h
      simp only [Option.map_eq_some_iff] at h
      obtain ⟨ts, h1, h2⟩ := h
      have h3 := (each_iff fun x _ u => entry_iff dicts e s x u).1 ((allSome_iff _ _ _).1 h1)
      exact ⟨r.1, r.2, ts, (C91_subscripts hn _ _ _).1 hh, h3, by rw [← h2, fin _ _ h3]⟩
  · rintro ⟨n, l, ts, h1, h2, rfl⟩
    rw [(C91_subscripts hn _ _ _).2 h1]
    simp only [Option.map_eq_some_iff]
    exact ⟨ts, (allSome_iff _ _ _).2 ((each_iff fun x _ u => entry_iff dicts e s x u).2 h2), fin _ _ h2⟩

/-- Without dictionaries there is a colon for each dimension. -/
theorem C91_colons {name : Str} (hn : Named name) (dims : List Str) (e s : Bool) (t : Str) :
    callDimstring name dims none e s = some t ↔ ∃ n l, AllDims name dims n l ∧
      t = if l = [] then [] else '(' :: (sepBy [','] (List.replicate l.length [':']) ++ [')']) := by
  unfold callDimstring
  have fin : ∀ l : List Str, (if (l.map fun _ => [':']).isEmpty then [] else "(".toList ++ join ",".toList (l.map fun _ => [':']) ++ ")".toList) =
      if l = [] then [] else '(' :: (sepBy [','] (List.replicate l.length [':']) ++ [')']) := by
    intro l
    rw [join_eq, List.map_const']
    cases l <;> simp
  constructor
  · intro h
    cases hh : handleArrayRef name dims with
    | none => rw [hh] at h; cases h
    | some r =>
      rw [hh] at h
      simp only [Option.map_some, Option.some.injEq] at h
      exact ⟨r.1, r.2, (C91_subscripts hn _ _ _).1 hh, by rw [← h, fin]⟩
  · rintro ⟨n, l, h1, rfl⟩
    rw [(C91_subscripts hn _ _ _).2 h1]
    simp only [Option.map_some, Option.some.injEq]
    exact fin l

/-! ## Arguments -/

theorem item_iff (d : Dict) (s t : Str) : itemText d s = some t ↔ Item d s t := by
  unfold itemText
  by_cases hs : s = []
  · rw [if_pos hs, hs]
    constructor
    · intro h; cases h; exact .empty
    · intro h
      cases h with
      | empty => rfl
      | var h => exact absurd rfl h
      | number h => exact absurd rfl h
  · rw [if_neg hs]
    cases h : d.find s with
    | some u =>
      simp only []
      constructor
      · rintro rfl; exact .var hs h
      · intro g
        cases g with
        | empty => exact absurd rfl hs
        | var _ g => rw [h] at g; exact Option.some.inj g
        | number _ g => rw [h] at g; cases g
    | none =>
      simp only []
      constructor
      · intro g
        split at g
        · rename_i hi; cases g; exact .number hs h ((Chk.isPyInt_iff s).1 hi)
        · cases g
      · intro g
        cases g with
        | empty => exact absurd rfl hs
        | var _ g => rw [h] at g; cases g
        | number _ _ g => rw [if_pos ((Chk.isPyInt_iff s).2 g)]

theorem argDim_iff (d : Dict) (loop : Str → Option Str) (dim t : Str) : callDim d loop dim = some t ↔ ArgDim d loop dim t := by
  unfold callDim
  cases h : loop dim with
  | some u =>
    simp only [Option.some.injEq]
    constructor
    · rintro rfl; exact .loop h
    · intro g
      cases g with
      | loop g => rw [h] at g; exact Option.some.inj g
      | parts g => rw [h] at g; cases g
  | none =>
    simp only [Option.map_eq_some_iff]
    constructor
    · rintro ⟨ts, h1, rfl⟩
      rw [join_eq]
      exact .parts h ((parts_iff _ _).2 rfl) ((each_iff fun x _ u => item_iff d x u).1 ((allSome_iff _ _ _).1 h1))
    · intro g
      cases g with
      | loop g => rw [h] at g; cases g
      | parts _ h1 h2 =>
        rw [(parts_iff _ _).1 h1] at h2
        exact ⟨_, (allSome_iff _ _ _).2 ((each_iff fun x _ u => item_iff d x u).2 h2), join_eq _ _⟩

/-- The argument: the name of the variable, with what `ArgDim` says for each of its dimensions in parentheses; an error
if there is none. -/
theorem C91_argument {name : Str} (hn : Named name) (dims : List Str) (d : Dict) (loop : Str → Option Str) (t : Str) :
    callString d loop name dims = some t ↔
      ∃ n l ts, AllDims name dims n l ∧ Each (ArgDim d loop) l ts ∧ t = parens n ", ".toList ts := by
  unfold callString
  constructor
  · intro h
    cases hh : handleArrayRef name dims with
    | none => rw [hh] at h; cases h
    | some r =>
      rw [hh] at h
      obtain ⟨n, l⟩ := r
      have ha := (C91_subscripts hn _ _ _).1 hh
      cases l with
      | nil => cases h; exact ⟨_, [], [], ha, .nil, rfl⟩
      | cons x l =>
        simp only [Option.map_eq_some_iff] at h
        obtain ⟨ts, h1, rfl⟩ := h
        have h3 := (each_iff fun x _ u => argDim_iff d loop x u).1 ((allSome_iff _ _ _).1 h1)
        refine ⟨n, _, ts, ha, h3, ?_⟩
        unfold parens
        rw [if_neg (by intro e; rw [e] at h3; cases h3), join_eq]
        simp
  · rintro ⟨n, l, ts, h1, h2, rfl⟩
    rw [(C91_subscripts hn _ _ _).2 h1]
    cases h2 with
    | nil => rfl
    | @cons x u l ts hx h2 =>
      simp only [Option.map_eq_some_iff]
      refine ⟨u :: ts, (allSome_iff _ (x :: l) _).2 ((each_iff fun x _ u => argDim_iff d loop x u).2 (.cons hx h2)), ?_⟩
      unfold parens
      rw [if_neg (by simp), join_eq]
      simp

end Ccpp.VRef
