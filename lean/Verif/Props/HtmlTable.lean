import Verif.Spec.HtmlTable
import Mathlib.Data.List.Forall2
/-!
# C109: the HTML page of a metadata table
-/
namespace Ccpp.HT

/-- Without braces. -/
def NoBrace (s : Str) : Prop := '{' ∉ s ∧ '}' ∉ s

theorem fmt_noBrace (n v : Str) : ∀ {s : Str}, NoBrace s → fmt n v 0 s = some s
  | [], _ => rfl
  | c :: s, h => by
    have h1 : c ≠ '{' := fun e => h.1 (e ▸ .head _)
    have h2 : c ≠ '}' := fun e => h.2 (e ▸ .head _)
    rw [fmt, if_neg h1, if_neg h2, fmt_noBrace n v ⟨fun m => h.1 (.tail _ m), fun m => h.2 (.tail _ m)⟩]
    rfl

theorem noBrace_td (k : Char) (hk : k = 'd' ∨ k = 'h') {s : Str} (h : NoBrace s) :
    NoBrace (['<', 't', k, '>'] ++ s ++ ['<', '/', 't', k, '>']) := by
  obtain ⟨h1, h2⟩ := h
  rcases hk with rfl | rfl <;> constructor <;> simp [h1, h2]

theorem value_shows (v : Var) (p : Str) : Shows v p (value v p) := by
  unfold Shows value
  by_cases hp : p = "dimensions".toList
  · rw [if_pos hp]
    refine .inl ⟨hp, join v.dims, ?_, rfl⟩
    generalize v.dims = l
    induction l with
    | nil => exact .nil
    | cons a l ih =>
      cases l with
      | nil => exact .one
      | cons b l => exact .cons (by simp) ih
  · rw [if_neg hp]
    refine .inr ⟨hp, ?_⟩
    cases h : v.get p with
    | none => exact .inr ⟨rfl, rfl⟩
    | some t => exact .inl rfl

theorem listed_unique {l : List Str} {s t : Str} (h : Listed l s) (h' : Listed l t) : s = t := by
  induction h generalizing t with
  | nil => cases h'; rfl
  | one =>
    cases h' with
    | one => rfl
    | cons h => exact absurd rfl h
  | cons hne _ ih =>
    cases h' with
    | one => exact absurd rfl hne
    | cons _ h => rw [ih h]

/-- A property of a variable is shown in one way only. -/
theorem shows_unique {v : Var} {p s t : Str} (h : Shows v p s) (h' : Shows v p t) : s = t := by
  rcases h with ⟨hp, l, hl, rfl⟩ | ⟨hp, h⟩ <;> rcases h' with ⟨hp', l', hl', rfl⟩ | ⟨hp', h'⟩
  · rw [listed_unique hl hl']
  · exact absurd hp hp'
  · exact absurd hp' hp
  · rcases h with h | ⟨h, rfl⟩ <;> rcases h' with h' | ⟨h', rfl⟩ <;> simp_all

/-- The texts are shown as they stand, and have no braces. -/
def Fine (props : List Str) (vars : List Var) : Prop :=
  (∀ p ∈ props, Plain p ∧ NoBrace p) ∧ ∀ v ∈ vars, ∀ p ∈ props, ∀ t, Shows v p t → Plain t ∧ NoBrace t

theorem mapM_some {α β : Type} {f : α → Option β} {g : α → β} : ∀ {l : List α}, (∀ a ∈ l, f a = some (g a)) → l.mapM f = some (l.map g)
  | [], _ => rfl
  | a :: l, h => by
    rw [List.mapM_cons, h a (.head _), mapM_some fun b hb => h b (.tail _ hb)]
    rfl

theorem cells_of (k : Char) : ∀ {l : List Str}, (∀ c ∈ l, Plain c) →
    Cells k (l.map fun c => ['<', 't', k, '>'] ++ c ++ ['<', '/', 't', k, '>']).flatten l
  | [], _ => .nil
  | c :: l, h => by
    rw [List.map_cons, List.flatten_cons]
    exact .cons (h c (.head _)) (cells_of k fun d hd => h d (.tail _ hd))

theorem header_eq {props : List Str} (h : ∀ p ∈ props, Plain p ∧ NoBrace p) : ∃ t, header props = some t ∧ Row 'h' t props := by
  unfold header
  rw [mapM_some (f := fun p => fmt "prop".toList p 0 ("<th>".toList ++ p ++ "</th>".toList))
    (g := fun c => ['<', 't', 'h', '>'] ++ c ++ ['<', '/', 't', 'h', '>']) fun p hp => fmt_noBrace _ _ (noBrace_td 'h' (.inr rfl) (h p hp).2)]
  exact ⟨_, rfl, _, cells_of 'h' fun c hc => (h c hc).1, rfl⟩

theorem row_eq {props : List Str} {v : Var} (h : ∀ p ∈ props, ∀ t, Shows v p t → Plain t ∧ NoBrace t) :
    ∃ t, row props v = some t ∧ Row 'd' t (props.map (value v)) := by
  unfold row
  rw [mapM_some (f := cell v) (g := fun p => ['<', 't', 'd', '>'] ++ value v p ++ ['<', '/', 't', 'd', '>'])
    fun p hp => fmt_noBrace _ _ (noBrace_td 'd' (.inl rfl) (h p hp _ (value_shows v p)).2)]
  refine ⟨_, rfl, _, ?_, rfl⟩
  have := cells_of 'd' (l := props.map (value v)) fun c hc => by
    obtain ⟨p, hp, rfl⟩ := List.mem_map.1 hc
    exact (h p hp _ (value_shows v p)).1
  rw [List.map_map] at this
  exact this

theorem rows_eq {props : List Str} : ∀ {vars : List Var}, (∀ v ∈ vars, ∀ p ∈ props, ∀ t, Shows v p t → Plain t ∧ NoBrace t) →
    ∃ rs, vars.mapM (row props) = some rs ∧ Rows rs.flatten (vars.map fun v => props.map (value v))
  | [], _ => ⟨[], rfl, .nil⟩
  | v :: vars, h => by
    obtain ⟨r, h1, h2⟩ := row_eq (h v (.head _))
    obtain ⟨rs, h3, h4⟩ := rows_eq fun w hw => h w (.tail _ hw)
    refine ⟨r :: rs, ?_, .cons h2 h4⟩
    rw [List.mapM_cons, h1, h3]
    rfl

theorem forall2_map {α β : Type} {R : α → β → Prop} {f : α → β} : ∀ {l : List α}, (∀ a ∈ l, R a (f a)) → List.Forall₂ R l (l.map f)
  | [], _ => .nil
  | a :: _, h => .cons (h a (.head _)) (forall2_map fun b hb => h b (.tail _ hb))

/-- The page of a table has a row for each variable, in order, and a cell for each property, in order, with its value, if all texts are shown as
they stand and have no braces (missing: `C109_brace_violated`, `C109_markup_violated`). -/
theorem C109_partial {title : Str} {props : List Str} {vars : List Var} (hv : vars ≠ []) (ht : Plain title) (h : Fine props vars) :
    ∃ p rs, toHtml title props vars = some (some p) ∧ Page p (title ++ " argument table".toList) props rs ∧
      List.Forall₂ (fun v r => List.Forall₂ (Shows v) props r) vars rs := by
  obtain ⟨t, h1, h2⟩ := header_eq h.1
  obtain ⟨rs, h3, h4⟩ := rows_eq h.2
  refine ⟨page (title ++ " argument table".toList) t rs.flatten, _, ?_, ⟨⟨?_, ?_⟩, t, _, h2, h4, rfl⟩, forall2_map fun v _ => forall2_map fun p _ => value_shows v p⟩
  · unfold toHtml
    rw [if_neg (by simpa using hv), h1, h3]
    rfl
  · simp [ht.1]
  · simp [ht.2]

/-- There is no page exactly if there is no variable. -/
theorem C109_skipped {title : Str} {props : List Str} {vars : List Var} : toHtml title props vars = some none ↔ vars = [] := by
  unfold toHtml
  by_cases hv : vars = []
  · simp [hv]
  · rw [if_neg (by simpa using hv)]
    simp only [hv, iff_false]
    cases header props with
    | none => simp
    | some a => cases vars.mapM (row props) <;> simp

theorem cut {c : Char} : ∀ {a b x y : Str}, c ∉ a → c ∉ b → a ++ c :: x = b ++ c :: y → a = b ∧ x = y
  | [], [], x, y, _, _, h => ⟨rfl, by simpa using h⟩
  | [], d :: b, x, y, _, hb, h => by
    simp only [List.nil_append, List.cons_append, List.cons.injEq] at h
    exact absurd (by rw [← h.1]; exact .head _) hb
  | d :: a, [], x, y, ha, _, h => by
    simp only [List.nil_append, List.cons_append, List.cons.injEq] at h
    exact absurd (by rw [h.1]; exact .head _) ha
  | d :: a, e :: b, x, y, ha, hb, h => by
    simp only [List.cons_append, List.cons.injEq] at h
    obtain ⟨g1, g2⟩ := cut (fun h => ha (.tail _ h)) (fun h => hb (.tail _ h)) h.2
    exact ⟨by rw [h.1, g1], g2⟩

theorem cells_unique {k : Char} {t t' x x' : Str} {cs cs' : List Str} (h : Cells k t cs) (h' : Cells k t' cs')
    (e : t ++ '<' :: '/' :: x = t' ++ '<' :: '/' :: x') : cs = cs' ∧ x = x' := by
  induction h generalizing t' cs' with
  | nil =>
    cases h' with
    | nil => exact ⟨rfl, by simpa using e⟩
    | cons => simp at e
  | cons hp _ ih =>
    cases h' with
    | nil => simp at e
    | cons hp' h' =>
      simp only [List.append_assoc, List.cons_append, List.nil_append, List.cons.injEq, true_and] at e
      obtain ⟨g1, g2⟩ := cut hp.1 hp'.1 e
      simp only [List.cons.injEq, true_and] at g2
      obtain ⟨g3, g4⟩ := ih h' g2
      subst g1 g3 g4
      exact ⟨rfl, rfl⟩

theorem row_unique {k : Char} {r r' x x' : Str} {cs cs' : List Str} (h : Row k r cs) (h' : Row k r' cs') (e : r ++ x = r' ++ x') :
    cs = cs' ∧ x = x' := by
  obtain ⟨t, h, rfl⟩ := h
  obtain ⟨t', h', rfl⟩ := h'
  simp only [List.append_assoc, List.cons_append, List.nil_append, List.cons.injEq, true_and] at e
  obtain ⟨g1, g2⟩ := cells_unique h h' e
  simp only [List.cons.injEq, true_and] at g2
  exact ⟨g1, g2⟩

theorem rows_unique {t t' x x' : Str} {rs rs' : List (List Str)} (h : Rows t rs) (h' : Rows t' rs')
    (e : t ++ '<' :: '/' :: x = t' ++ '<' :: '/' :: x') : rs = rs' := by
  induction h generalizing t' rs' with
  | nil =>
    cases h' with
    | nil => rfl
    | cons h1 h2 =>
      obtain ⟨u, _, rfl⟩ := h1
      simp at e
  | cons h1 h2 ih =>
    cases h' with
    | nil =>
      obtain ⟨u, _, rfl⟩ := h1
      simp at e
    | cons h1' h2' =>
      rw [List.append_assoc, List.append_assoc] at e
      obtain ⟨g1, g2⟩ := row_unique h1 h1' e
      rw [g1, ih h2' g2]

/-- A page is read in one way only. -/
theorem C109_unique {p t t' : Str} {hs hs' : List Str} {rs rs' : List (List Str)} (h : Page p t hs rs) (h' : Page p t' hs' rs') :
    t = t' ∧ hs = hs' ∧ rs = rs' := by
  obtain ⟨ht, a, b, h1, h2, rfl⟩ := h
  obtain ⟨ht', a', b', h1', h2', e⟩ := h'
  simp only [List.append_assoc, List.append_cancel_left_eq] at e
  have e2 : "</title>\n<meta charset=\"UTF-8\">\n</head>\n<body>\n<table border=\"1\">\n".toList =
      '<' :: "/title>\n<meta charset=\"UTF-8\">\n</head>\n<body>\n<table border=\"1\">\n".toList := by decide +kernel
  rw [e2, List.cons_append, List.cons_append] at e
  obtain ⟨g1, g2⟩ := cut ht.1 ht'.1 e
  obtain ⟨g3, g4⟩ := row_unique h1 h1' (List.append_cancel_left g2)
  have e3 : "</table>\n</body>\n</html>\n".toList = '<' :: '/' :: "table>\n</body>\n</html>\n".toList := by decide +kernel
  rw [e3] at g4
  exact ⟨g1, g3, rows_unique h2 h2' g4⟩

/-! ### Concrete cases -/

/-- Two properties. -/
def exProps : List Str := ["units".toList, "dimensions".toList]
/-- A variable with these units and two dimensions. -/
def exVar (u : Str) : Var := ⟨fun p => if p = "units".toList then some u else none, ["a".toList, "b".toList]⟩

/-- The units and the dimensions are shown. -/
example : Fine exProps [exVar "K".toList] ∧ (toHtml "t".toList exProps [exVar "K".toList]).isSome = true := by
  refine ⟨⟨?_, ?_⟩, by decide +kernel⟩
  · intro p hp
    have : ∀ p ∈ exProps, ('<' ∉ p ∧ '&' ∉ p) ∧ ('{' ∉ p ∧ '}' ∉ p) := by decide +kernel
    exact this p hp
  · intro v hv p hp t ht
    cases shows_unique ht (value_shows v p)
    have : ∀ p ∈ exProps, ('<' ∉ value (exVar "K".toList) p ∧ '&' ∉ value (exVar "K".toList) p) ∧
      ('{' ∉ value (exVar "K".toList) p ∧ '}' ∉ value (exVar "K".toList) p) := by decide +kernel
    rw [List.mem_singleton.1 hv]
    exact this p hp

/-- A value with a brace stops the program, and two braces are shown as one. -/
theorem C109_brace_violated : toHtml "t".toList exProps [exVar "{kg}".toList] = none ∧
    cell (exVar "{{1}}".toList) "units".toList = some "<td>{1}</td>".toList := by
  constructor <;> decide +kernel

/-- Markup in a value is not escaped: one value is read as two cells. -/
theorem C109_markup_violated :
    ∃ p, toHtml "t".toList ["units".toList] [exVar "x</td><td>y".toList] = some (some p) ∧
      Page p "t argument table".toList ["units".toList] [["x".toList, "y".toList]] := by
  refine ⟨_, rfl, ⟨by decide +kernel, by decide +kernel⟩, "<tr><th>units</th></tr>\n".toList, "<tr><td>x</td><td>y</td></tr>\n".toList ++ [],
    ⟨_, .cons (c := "units".toList) ⟨by decide +kernel, by decide +kernel⟩ .nil, by decide +kernel⟩,
    .cons ⟨_, .cons (c := "x".toList) ⟨by decide +kernel, by decide +kernel⟩ (.cons (c := "y".toList) ⟨by decide +kernel, by decide +kernel⟩ .nil), by decide +kernel⟩ .nil,
    by decide +kernel⟩

end Ccpp.HT
