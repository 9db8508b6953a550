import Verif.Spec.LeafElements
/-!
# C106: the elements of a variable
-/
namespace Ccpp.LE

theorem children_iff : ∀ (v c : RVar), c ∈ v.children ↔ Refers v c
  | .orig s d kids, c => by
    constructor
    · intro h; exact .orig h
    · intro h; cases h with | orig h => exact h
  | .clone s d kids src, c => by
    rw [RVar.children]
    cases kids with
    | nil =>
      rw [if_pos (by rfl), children_iff src c]
      constructor
      · intro h; exact .cloned h
      · intro h
        cases h with
        | own h => cases h
        | cloned h => exact h
    | cons k ks =>
      rw [if_neg (by simp)]
      constructor
      · intro h; exact .own h
      · intro h; cases h with | own h => exact h

/-- The dictionaries, as functions. -/
def Dicts.look (d : Dicts) : Str → Option RVar := d.check.getD fun _ => none
/-- See `Dicts.look`. -/
def Dicts.types (d : Dicts) : Str → Option (List RVar) := d.lib.getD fun _ => none

theorem nil_iff (v : RVar) : v.children = [] ↔ ∀ c, ¬Refers v c := by
  rw [List.eq_nil_iff_forall_not_mem]
  exact forall_congr' fun c => not_congr (children_iff v c)

theorem childrenIn_iff (d : Dicts) (v c : RVar) : c ∈ childrenIn d v ↔ RefersIn d.look v c := by
  unfold childrenIn
  by_cases h : v.children = []
  · rw [if_pos (by simp [h])]
    have hn := (nil_iff v).1 h
    constructor
    · intro hc
      cases hd : d.check with
      | none => simp [hd] at hc
      | some f =>
        rw [hd] at hc
        cases hf : f v.std with
        | none => simp [hf] at hc
        | some p =>
          simp only [hf] at hc
          exact .other hn (by simp [Dicts.look, hd, hf]) ((children_iff p c).1 hc)
    · intro hc
      cases hc with
      | own hc => exact absurd hc (hn c)
      | other _ hl hc =>
        cases hd : d.check with
        | none => simp [Dicts.look, hd] at hl
        | some f =>
          simp only [Dicts.look, hd, Option.getD_some] at hl
          simp only [hl]
          exact (children_iff _ c).2 hc
  · rw [if_neg (by simpa using h), children_iff]
    constructor
    · exact .own
    · intro hc
      cases hc with
      | own hc => exact hc
      | other hn _ _ => exact absurd ((nil_iff v).2 hn) h

theorem childrenIn_nil (d : Dicts) (v : RVar) : childrenIn d v = [] ↔ ∀ c, ¬RefersIn d.look v c := by
  rw [List.eq_nil_iff_forall_not_mem]
  exact forall_congr' fun c => not_congr (childrenIn_iff d v c)

theorem refersIn_none {v c : RVar} : RefersIn (fun _ => none) v c ↔ Refers v c := by
  constructor
  · intro h
    cases h with
    | own h => exact h
    | other _ h _ => cases h
  · exact .own

theorem fields_ok {f : RVar → Except Err Elems} : ∀ {l : List RVar}, fields f l = .ok () ↔ ∀ v ∈ l, ∃ r, f v = .ok r
  | [] => by simp [fields]
  | v :: l => by
    rw [fields]
    cases h : f v with
    | error e => simp [h]
    | ok r => simp [h, fields_ok (l := l)]

theorem collect_ok {f : RVar → Except Err Elems} : ∀ {l : List RVar}, (∃ s, collect f l = .ok s) ↔ ∀ v ∈ l, ∃ r, f v = .ok r
  | [] => by simp [collect]
  | v :: l => by
    rw [collect]
    cases h : f v with
    | error e => simp [h]
    | ok r =>
      have ih := collect_ok (f := f) (l := l)
      constructor
      · rintro ⟨s, hs⟩ w hw
        rcases List.mem_cons.1 hw with rfl | hw
        · exact ⟨r, h⟩
        · refine ih.1 ?_ w hw
          cases hc : collect f l with
          | error e => simp [hc, Except.map] at hs
          | ok s' => exact ⟨s', rfl⟩
      · intro hw
        obtain ⟨s, hs⟩ := ih.2 fun w h => hw w (.tail _ h)
        exact ⟨_, by rw [hs]; rfl⟩

theorem collect_mem {f : RVar → Except Err Elems} : ∀ {l : List RVar} {s : List Str}, collect f l = .ok s →
    ∀ x, x ∈ s ↔ ∃ v ∈ l, ∃ r, f v = .ok r ∧ x ∈ r.items
  | [], s, h, x => by cases h; simp
  | v :: l, s, h, x => by
    rw [collect] at h
    cases hv : f v with
    | error e => simp [hv] at h
    | ok r =>
      simp only [hv] at h
      cases hc : collect f l with
      | error e => simp [hc, Except.map] at h
      | ok s' =>
        simp only [hc, Except.map, Except.ok.injEq] at h
        subst h
        rw [List.mem_append, collect_mem hc x]
        constructor
        · rintro (h | ⟨w, hw, h⟩)
          · exact ⟨v, .head _, r, hv, h⟩
          · exact ⟨w, .tail _ hw, h⟩
        · rintro ⟨w, hw, r', hr, h⟩
          rcases List.mem_cons.1 hw with rfl | hw
          · rw [hv] at hr; cases hr; exact .inl h
          · exact .inr ⟨w, hw, r', hr, h⟩

/-- When the elements are found, and which. -/
theorem elements_ok {n : Nat} {d : Dicts} {v : RVar} {r : Elems} : elements (n + 1) d v = .ok r ↔
    (∀ t, v.ddt = some t → ∃ fs, d.types t = some fs ∧ ∀ f ∈ fs, ∃ r, elements n d f = .ok r) ∧
    ((childrenIn d v = [] ∧ r = .one v.std) ∨
      (childrenIn d v ≠ [] ∧ ∃ l, collect (elements n ⟨none, none⟩) (childrenIn d v) = .ok l ∧ r = .many l)) := by
  have tail : ((if (childrenIn d v).isEmpty then Except.ok (Elems.one v.std)
      else (collect (elements n ⟨none, none⟩) (childrenIn d v)).map .many) = .ok r) ↔
      ((childrenIn d v = [] ∧ r = .one v.std) ∨
      (childrenIn d v ≠ [] ∧ ∃ l, collect (elements n ⟨none, none⟩) (childrenIn d v) = .ok l ∧ r = .many l)) := by
    by_cases h : childrenIn d v = []
    · simp [h, eq_comm]
    · rw [if_neg (by simpa using h)]
      cases hc : collect (elements n ⟨none, none⟩) (childrenIn d v) with
      | error e => simp [Except.map, h]
      | ok l => simp [Except.map, h, eq_comm]
  rw [elements]
  have types : ∀ t, (d.lib.bind fun l => l t) = d.types t := by
    intro t; unfold Dicts.types; cases d.lib <;> rfl
  cases hd : v.ddt with
  | none =>
    simp only [reduceCtorEq, false_implies, implies_true, true_and]
    exact tail
  | some t =>
    simp only [types, Option.some.injEq, forall_eq']
    cases ht : d.types t with
    | none => simp
    | some fs =>
      cases hf : fields (elements n d) fs with
      | error e =>
        have : ¬∀ f ∈ fs, ∃ r, elements n d f = .ok r := fun h => by rw [fields_ok.2 h] at hf; cases hf
        simp only [hf, reduceCtorEq, Option.some.injEq, exists_eq_left', this, false_and]
      | ok u =>
        rw [← true_and (_ ∨ _), ← eq_true (show ∃ fs', some fs = some fs' ∧ ∀ f ∈ fs', ∃ r, elements n d f = .ok r from ⟨fs, rfl, fields_ok.1 hf⟩)] at tail
        simpa only [hf] using tail

/-- More depth does not change a result. -/
theorem elements_mono : ∀ {n : Nat} {d : Dicts} {v : RVar} {r : Elems}, elements n d v = .ok r → elements (n + 1) d v = .ok r
  | 0, d, v, r, h => by cases h
  | n + 1, d, v, r, h => by
    obtain ⟨h1, h2⟩ := elements_ok.1 h
    refine elements_ok.2 ⟨fun t ht => ?_, ?_⟩
    · obtain ⟨fs, hfs, hf⟩ := h1 t ht
      exact ⟨fs, hfs, fun f hm => (hf f hm).imp fun r => elements_mono⟩
    · rcases h2 with h2 | ⟨hn, l, hl, rfl⟩
      · exact .inl h2
      · refine .inr ⟨hn, l, ?_, rfl⟩
        clear h hn
        revert l
        generalize childrenIn d v = cs
        induction cs with
        | nil => exact fun l h => h
        | cons c cs ih =>
          intro l hl
          rw [collect] at hl ⊢
          cases hc : elements n ⟨none, none⟩ c with
          | error e => simp [hc] at hl
          | ok r =>
            rw [elements_mono hc]
            simp only [hc] at hl ⊢
            cases hr : collect (elements n ⟨none, none⟩) cs with
            | error e => simp [hr, Except.map] at hl
            | ok s => rw [ih s hr, ← hl, hr]

theorem elements_le {n m : Nat} (h : n ≤ m) {d : Dicts} {v : RVar} {r : Elems} (hr : elements n d v = .ok r) : elements m d v = .ok r := by
  induction h with
  | refl => exact hr
  | step _ ih => exact elements_mono ih

/-- The elements do not depend on how deep the recursion may become, if it is deep enough. -/
theorem C106_unique {n m : Nat} {d : Dicts} {v : RVar} {r s : Elems} (hr : elements n d v = .ok r) (hs : elements m d v = .ok s) : r = s := by
  have h1 := elements_le (Nat.le_max_left n m) hr
  have h2 := elements_le (Nat.le_max_right n m) hs
  rw [h1] at h2; cases h2; rfl

theorem plain_of : ∀ {n : Nat} {v : RVar} {r : Elems}, elements n ⟨none, none⟩ v = .ok r → Plain v
  | 0, v, r, h => by cases h
  | n + 1, v, r, h => by
    obtain ⟨h1, h2⟩ := elements_ok.1 h
    refine .mk ?_ fun c hc => ?_
    · cases hd : v.ddt with
      | none => rfl
      | some t => obtain ⟨fs, hfs, _⟩ := h1 t hd; cases hfs
    · have hm := (childrenIn_iff ⟨none, none⟩ v c).2 (.own hc)
      rcases h2 with ⟨e, _⟩ | ⟨_, l, hl, _⟩
      · rw [e] at hm; cases hm
      · obtain ⟨r', hr'⟩ := collect_ok.1 ⟨l, hl⟩ c hm
        exact plain_of hr'

/-- The items found for a reference are its leaves. -/
theorem items_leaf : ∀ {n : Nat} {v : RVar} {r : Elems}, Named v → elements n ⟨none, none⟩ v = .ok r → ∀ x, x ∈ r.items ↔ Leaf v x
  | 0, v, r, _, h => by cases h
  | n + 1, v, r, hv, h => by
    obtain ⟨hs, hk⟩ := hv
    intro x
    have href : ∀ c, c ∈ childrenIn ⟨none, none⟩ v ↔ Refers v c := fun c =>
      (childrenIn_iff _ v c).trans (by unfold Dicts.look; exact refersIn_none)
    rcases (elements_ok.1 h).2 with ⟨e, rfl⟩ | ⟨hn, l, hl, rfl⟩
    · have hno : ∀ c, ¬Refers v c := fun c hc => by have := (href c).2 hc; rw [e] at this; cases this
      have : (Elems.one v.std).items = [v.std] := by
        simp [Elems.items, hs]
      rw [this, List.mem_singleton]
      constructor
      · rintro rfl; exact .self hno
      · intro hx
        cases hx with
        | self _ => rfl
        | ref hc _ => exact absurd hc (hno _)
    · have hne : ∀ y ∈ l, y ≠ [] ∧ ∃ c, Refers v c ∧ Leaf c y := by
        intro y hy
        obtain ⟨c, hc, r', hr', hy⟩ := (collect_mem hl y).1 hy
        refine ⟨?_, c, (href c).1 hc, (items_leaf (hk c ((href c).1 hc)) hr' y).1 hy⟩
        rintro rfl
        cases r' <;> simp [Elems.items] at hy
      show x ∈ l.filter _ ↔ _
      rw [List.mem_filter]
      constructor
      · rintro ⟨hx, _⟩
        obtain ⟨_, c, hc, hx⟩ := hne x hx
        exact .ref hc hx
      · intro hx
        have hx' : x ∈ l := by
          cases hx with
          | self hno =>
            obtain ⟨c, hc⟩ := List.exists_mem_of_ne_nil _ hn
            exact absurd ((href c).1 hc) (hno c)
          | ref hc hx =>
            obtain ⟨r', hr'⟩ := collect_ok.1 ⟨l, hl⟩ _ ((href _).2 hc)
            exact (collect_mem hl x).2 ⟨_, (href _).2 hc, r', hr', (items_leaf (hk _ hc) hr' x).2 hx⟩
        refine ⟨hx', ?_⟩
        have := (hne x hx').1
        cases x with
        | nil => exact absurd rfl this
        | cons => rfl

/-- The elements of a variable: its own name if it has no references, and otherwise the leaves below them, whatever its type. -/
theorem C106_elements {n : Nat} {d : Dicts} {v : RVar} {r : Elems} (hn : ∀ c, RefersIn d.look v c → Named c) (h : elements n d v = .ok r) :
    ((∀ c, ¬RefersIn d.look v c) ∧ r = .one v.std) ∨
      ((∃ c, RefersIn d.look v c) ∧ ∃ l, r = .many l ∧ ∀ x, x ∈ l ↔ ∃ c, RefersIn d.look v c ∧ Leaf c x) := by
  cases n with
  | zero => cases h
  | succ n =>
    rcases (elements_ok.1 h).2 with ⟨e, rfl⟩ | ⟨hne, l, hl, rfl⟩
    · exact .inl ⟨(childrenIn_nil d v).1 e, rfl⟩
    · refine .inr ⟨?_, l, rfl, fun x => ?_⟩
      · obtain ⟨c, hc⟩ := List.exists_mem_of_ne_nil _ hne
        exact ⟨c, (childrenIn_iff d v c).1 hc⟩
      · rw [collect_mem hl x]
        constructor
        · rintro ⟨c, hc, r, hr, hx⟩
          have hc := (childrenIn_iff d v c).1 hc
          exact ⟨c, hc, (items_leaf (hn c hc) hr x).1 hx⟩
        · rintro ⟨c, hc, hx⟩
          have hm := (childrenIn_iff d v c).2 hc
          obtain ⟨r, hr⟩ := collect_ok.1 ⟨l, hl⟩ c hm
          exact ⟨c, hm, r, hr, (items_leaf (hn c hc) hr x).2 hx⟩

/-! ### Intrinsic elements -/

theorem leaf_intrinsic {lib : Str → Option (List RVar)} {v : RVar} (hp : Plain v) (x : Str) :
    Leaf v x ↔ Intrinsic lib (fun _ => none) v x := by
  constructor
  · intro h
    induction h with
    | self hno =>
      obtain ⟨hd, _⟩ := hp
      exact .self (fun c hc => hno c (refersIn_none.1 hc)) hd
    | ref hc _ ih =>
      obtain ⟨_, hk⟩ := hp
      exact .ref (.own hc) (ih (hk _ hc))
  · intro h
    generalize hck : (fun _ => none : Str → Option RVar) = ck at h
    induction h with
    | self hno hd => subst hck; exact .self fun c hc => hno c (.own hc)
    | ref hc _ ih =>
      subst hck
      obtain ⟨_, hk⟩ := hp
      have hc := refersIn_none.1 hc
      exact .ref hc (ih (hk _ hc) rfl)
    | component _ hd _ _ _ _ => obtain ⟨hd', _⟩ := hp; rw [hd] at hd'; cases hd'

/-- A variable of intrinsic type gets its intrinsic elements: its own name if it has no references, and otherwise a list of exactly the
intrinsic leaves (missing: derived types, see `C106_ddt_violated`). -/
theorem C106_partial {n : Nat} {d : Dicts} {v : RVar} {r : Elems} (hd : v.ddt = none) (hn : ∀ c, RefersIn d.look v c → Named c)
    (h : elements n d v = .ok r) :
    ((∀ c, ¬RefersIn d.look v c) ∧ r = .one v.std ∧ ∀ x, x = v.std ↔ Intrinsic d.types d.look v x) ∨
      ((∃ c, RefersIn d.look v c) ∧ ∃ l, r = .many l ∧ ∀ x, x ∈ l ↔ Intrinsic d.types d.look v x) := by
  have plain : ∀ c, RefersIn d.look v c → Plain c := by
    intro c hc
    cases n with
    | zero => cases h
    | succ n =>
      have hm := (childrenIn_iff d v c).2 hc
      rcases (elements_ok.1 h).2 with ⟨e, _⟩ | ⟨_, l, hl, _⟩
      · rw [e] at hm; cases hm
      · obtain ⟨r, hr⟩ := collect_ok.1 ⟨l, hl⟩ c hm
        exact plain_of hr
  rcases C106_elements hn h with ⟨hno, rfl⟩ | ⟨hex, l, rfl, hl⟩
  · refine .inl ⟨hno, rfl, fun x => ⟨?_, ?_⟩⟩
    · rintro rfl; exact .self hno hd
    · intro hx
      cases hx with
      | self => rfl
      | ref hc _ => exact absurd hc (hno _)
      | component _ ht => rw [hd] at ht; cases ht
  · refine .inr ⟨hex, l, rfl, fun x => ?_⟩
    rw [hl x]
    constructor
    · rintro ⟨c, hc, hx⟩; exact .ref hc ((leaf_intrinsic (plain c hc) x).1 hx)
    · intro hx
      cases hx with
      | self hno _ => obtain ⟨c, hc⟩ := hex; exact absurd hc (hno c)
      | ref hc hx => exact ⟨_, hc, (leaf_intrinsic (plain _ hc) x).2 hx⟩
      | component _ ht => rw [hd] at ht; cases ht

/-! ### Success -/

theorem deep {α : Type} {p : Nat → α → Prop} (mono : ∀ n a, p n a → p (n + 1) a) : ∀ (l : List α), (∀ a ∈ l, ∃ n, p n a) →
    ∃ n, ∀ a ∈ l, p n a
  | [], _ => ⟨0, by simp⟩
  | a :: l, h => by
    obtain ⟨m, hm⟩ := h a (.head _)
    obtain ⟨k, hk⟩ := deep mono l fun b hb => h b (.tail _ hb)
    have up : ∀ {i j : Nat} {b : α}, i ≤ j → p i b → p j b := by
      intro i j b hij hb
      induction hij with
      | refl => exact hb
      | step _ ih => exact mono _ _ ih
    refine ⟨max m k, fun b hb => ?_⟩
    rcases List.mem_cons.1 hb with rfl | hb
    · exact up (Nat.le_max_left _ _) hm
    · exact up (Nat.le_max_right _ _) (hk b hb)

theorem ok_mono {d : Dicts} (n : Nat) (v : RVar) (h : ∃ r, elements n d v = .ok r) : ∃ r, elements (n + 1) d v = .ok r :=
  h.imp fun _ => elements_mono

theorem build {d : Dicts} {v : RVar} (h1 : ∀ t, v.ddt = some t → ∃ fs, d.types t = some fs ∧ ∀ f ∈ fs, ∃ n r, elements n d f = .ok r)
    (h2 : ∀ c ∈ childrenIn d v, ∃ n r, elements n ⟨none, none⟩ c = .ok r) : ∃ n r, elements n d v = .ok r := by
  obtain ⟨k, hk⟩ := deep (p := fun n c => ∃ r, elements n ⟨none, none⟩ c = .ok r) ok_mono _ h2
  have hm : ∃ m, ∀ t, v.ddt = some t → ∃ fs, d.types t = some fs ∧ ∀ f ∈ fs, ∃ r, elements m d f = .ok r := by
    cases hd : v.ddt with
    | none => exact ⟨0, by simp⟩
    | some t =>
      obtain ⟨fs, hfs, hf⟩ := h1 t hd
      obtain ⟨m, hm⟩ := deep (p := fun n c => ∃ r, elements n d c = .ok r) ok_mono fs hf
      refine ⟨m, ?_⟩
      rintro t' e
      cases e
      exact ⟨fs, hfs, hm⟩
  obtain ⟨m, hm⟩ := hm
  refine ⟨max m k + 1, ?_⟩
  have g1 : ∀ t, v.ddt = some t → ∃ fs, d.types t = some fs ∧ ∀ f ∈ fs, ∃ r, elements (max m k) d f = .ok r := by
    intro t ht
    obtain ⟨fs, hfs, hf⟩ := hm t ht
    exact ⟨fs, hfs, fun f hff => (hf f hff).imp fun _ => elements_le (Nat.le_max_left _ _)⟩
  by_cases hc : childrenIn d v = []
  · exact ⟨_, elements_ok.2 ⟨g1, .inl ⟨hc, rfl⟩⟩⟩
  · obtain ⟨l, hl⟩ := (collect_ok (f := elements (max m k) ⟨none, none⟩)).2 fun c hcc => (hk c hcc).imp fun _ h => elements_le (Nat.le_max_right m k) h
    exact ⟨_, elements_ok.2 ⟨g1, .inr ⟨hc, l, hl, rfl⟩⟩⟩

theorem plain_ok {v : RVar} (h : Plain v) : ∃ n r, elements n ⟨none, none⟩ v = .ok r := by
  induction h with
  | mk hd _ ih =>
    refine build (fun t ht => ?_) fun c hc => ih c ?_
    · rw [hd] at ht; cases ht
    · exact refersIn_none.1 ((childrenIn_iff ⟨none, none⟩ _ c).1 hc)

/-- The elements are found, at a certain depth, exactly if the derived types of the variable, of its components and so on are known, and no
reference is of a derived type. -/
theorem C106_complete (d : Dicts) (v : RVar) : (∃ n r, elements n d v = .ok r) ↔ Known d.types d.look v := by
  constructor
  · rintro ⟨n, r, h⟩
    induction n generalizing v r with
    | zero => cases h
    | succ n ih =>
      obtain ⟨h1, h2⟩ := elements_ok.1 h
      have hp : ∀ c, RefersIn d.look v c → Plain c := by
        intro c hc
        have hm := (childrenIn_iff d v c).2 hc
        rcases h2 with ⟨e, _⟩ | ⟨_, l, hl, _⟩
        · rw [e] at hm; cases hm
        · obtain ⟨r', hr'⟩ := collect_ok.1 ⟨l, hl⟩ c hm
          exact plain_of hr'
      cases hd : v.ddt with
      | none => exact .simple hd hp
      | some t =>
        obtain ⟨fs, hfs, hf⟩ := h1 t hd
        exact .typed hd hfs (fun f hm => by obtain ⟨r', hr'⟩ := hf f hm; exact ih f r' hr') hp
  · intro h
    induction h with
    | simple hd hp =>
      refine build (fun t ht => ?_) fun c hc => plain_ok (hp c ((childrenIn_iff d _ c).1 hc))
      rw [hd] at ht; cases ht
    | typed hd hl _ hp ih =>
      refine build (fun t ht => ?_) fun c hc => plain_ok (hp c ((childrenIn_iff d _ c).1 hc))
      rw [hd] at ht; cases ht
      exact ⟨_, hl, ih⟩

/-! ### Concrete cases -/

/-- Two tracers are references of an array. -/
def exArray : RVar := .orig "tracers".toList none [.orig "vapor".toList none [], .orig "cloud".toList none []]
/-- The array as an argument of a group. -/
def exArg : RVar := .orig "tracers".toList none []
/-- The dictionary of the host, and of the types: a grid with one component. -/
def exDicts : Dicts :=
  ⟨some fun t => if t = "grid".toList then some [.orig "area".toList none []] else none, some fun n => if n = "tracers".toList then some exArray else none⟩

/-- The hypotheses are met by the argument and the clone of the array, and these are their elements. -/
example : (∀ c ∈ childrenIn exDicts exArg, c.std ≠ [] ∧ c.children = []) ∧
    elements 5 exDicts exArg = .ok (.many ["vapor".toList, "cloud".toList]) ∧
    elements 5 ⟨none, none⟩ (.clone "copy".toList none [] exArray) = .ok (.many ["vapor".toList, "cloud".toList]) ∧
    elements 5 exDicts (.orig "pressure".toList none []) = .ok (.one "pressure".toList) := by
  refine ⟨?_, by rfl, by rfl, by rfl⟩
  intro c hc
  have : childrenIn exDicts exArg = [.orig "vapor".toList none [], .orig "cloud".toList none []] := by rfl
  rw [this] at hc
  simp only [List.mem_cons, List.not_mem_nil, or_false] at hc
  rcases hc with rfl | rfl <;> exact ⟨by decide, rfl⟩

/-- A variable of derived type: its only intrinsic element is its component, but its own name is reported. -/
theorem C106_ddt_violated : elements 5 exDicts (.orig "domain".toList (some "grid".toList) []) = .ok (.one "domain".toList) ∧
    Intrinsic exDicts.types exDicts.look (.orig "domain".toList (some "grid".toList) []) "area".toList ∧
    ¬Intrinsic exDicts.types exDicts.look (.orig "domain".toList (some "grid".toList) []) "domain".toList := by
  have no : ∀ {s : Str} {dd : Option Str}, s ≠ "tracers".toList → ∀ c, ¬RefersIn exDicts.look (.orig s dd []) c := by
    intro s dd hs c hc
    have hl' : exDicts.look s = none := if_neg hs
    cases hc with
    | own h => cases h with | orig h => cases h
    | other _ hl _ => rw [show (RVar.orig s dd []).std = s from rfl, hl'] at hl; cases hl
  have ht : exDicts.types "grid".toList = some [.orig "area".toList none []] := by rfl
  refine ⟨by rfl, ?_, ?_⟩
  · exact .component (no (by decide)) rfl ht (.head _) (.self (no (by decide)) rfl)
  · intro h
    cases h with
    | self _ hd => cases hd
    | ref hc _ => exact no (by decide) _ hc
    | component _ hd hl hf hx =>
      cases hd
      rw [ht] at hl
      cases hl
      rcases List.mem_singleton.1 hf with rfl
      generalize hy : "domain".toList = y at hx
      cases hx with
      | self => exact absurd hy (by decide)
      | ref hc _ => exact no (by decide) _ hc
      | component _ hd => cases hd

/-- A reference of derived type, whose type is known: it is an error that the type is not known. -/
theorem C106_reference_violated : exDicts.types "grid".toList ≠ none ∧
    ∀ n, elements (n + 2) exDicts (.orig "domains".toList none [.orig "domain".toList (some "grid".toList) []]) =
      .error (.undefined "grid".toList) :=
  ⟨(by intro h; cases h), fun _ => by rfl⟩

end Ccpp.LE
