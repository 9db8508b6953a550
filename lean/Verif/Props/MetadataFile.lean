import Verif.Props.MetadataHeads
/-!
# C62: a metadata file is read as it is written
-/
namespace Ccpp.MF

open Ccpp.FDecl (Str)
open Ccpp.FSub (Begins)

/-! ## Chunks -/

theorem chunks_split (p : Str → Bool) (ls : List Str) :
    ls = (chunks p ls).1 ++ ((chunks p ls).2.map fun c => c.1 :: c.2).flatten ∧
    (∀ l ∈ (chunks p ls).1, p l = false) ∧ ∀ c ∈ (chunks p ls).2, p c.1 = true := by
  induction ls with
  | nil => simp [chunks]
  | cons l ls ih =>
    obtain ⟨h1, h2, h3⟩ := ih
    rw [chunks]
    by_cases hp : p l = true
    · rw [if_pos hp]
      refine ⟨?_, by simp, ?_⟩
      · simp only [List.map_cons, List.flatten_cons, List.nil_append, List.cons_append]
        rw [← h1]
      · intro c hc
        rcases List.mem_cons.1 hc with rfl | hc
        · exact hp
        · exact h3 c hc
    · rw [if_neg hp]
      refine ⟨?_, ?_, h3⟩
      · simp only [List.cons_append]
        rw [← h1]
      · intro x hx
        rcases List.mem_cons.1 hx with rfl | hx
        · simpa using hp
        · exact h2 x hx

theorem chunks_append {p : Str → Bool} {pre ls : List Str} (h : ∀ l ∈ pre, p l = false) :
    chunks p (pre ++ ls) = (pre ++ (chunks p ls).1, (chunks p ls).2) := by
  induction pre with
  | nil => rfl
  | cons l pre ih =>
    rw [List.cons_append, chunks, if_neg (by simp [h l (by simp)]), ih fun x hx => h x (by simp [hx])]
    rfl

/-- A piece of text that begins with a start line and contains no other. -/
def Piece (p : Str → Bool) (x : List Str) : Prop :=
  ∃ l body, x = l :: body ∧ p l = true ∧ ∀ b ∈ body, p b = false

theorem chunks_pieces {p : Str → Bool} {xs : List (List Str)} (h : ∀ x ∈ xs, Piece p x) :
    (chunks p xs.flatten).1 = [] ∧ ((chunks p xs.flatten).2.map fun c => c.1 :: c.2) = xs := by
  induction xs with
  | nil => exact ⟨rfl, rfl⟩
  | cons x xs ih =>
    obtain ⟨l, body, rfl, hl, hb⟩ := h x (by simp)
    obtain ⟨h1, h2⟩ := ih fun y hy => h y (by simp [hy])
    rw [List.flatten_cons, List.cons_append, chunks, if_pos hl, chunks_append hb]
    refine ⟨rfl, ?_⟩
    simp only [List.map_cons, h1, h2, List.append_nil]

theorem chunks_text {p : Str → Bool} {pre : List Str} {xs : List (List Str)} (hp : ∀ l ∈ pre, p l = false)
    (h : ∀ x ∈ xs, Piece p x) :
    (chunks p (pre ++ xs.flatten)).1 = pre ∧ ((chunks p (pre ++ xs.flatten)).2.map fun c => c.1 :: c.2) = xs := by
  obtain ⟨h1, h2⟩ := chunks_pieces h
  rw [chunks_append hp]
  exact ⟨by simp [h1], h2⟩

theorem All2.map_left {α β γ : Type} {R : γ → β → Prop} {f : α → γ} {as : List α} {bs : List β} :
    All2 R (as.map f) bs ↔ All2 (fun a b => R (f a) b) as bs := by
  induction as generalizing bs with
  | nil =>
    constructor
    · intro h; cases h; exact .nil
    · intro h; cases h; exact .nil
  | cons a as ih =>
    constructor
    · intro h
      cases h with
      | cons h1 h2 => exact .cons h1 (ih.1 h2)
    · intro h
      cases h with
      | cons h1 h2 => exact .cons h1 (ih.2 h2)

/-- Two relations with something in between. -/
theorem All2.between {α β γ : Type} {R : α → γ → Prop} {S : γ → β → Prop} {as : List α} {bs : List β} :
    All2 (fun a b => ∃ c, R a c ∧ S c b) as bs ↔ ∃ cs, All2 R as cs ∧ All2 S cs bs := by
  constructor
  · intro h
    induction h with
    | nil => exact ⟨[], .nil, .nil⟩
    | cons h _ ih =>
      obtain ⟨c, h1, h2⟩ := h
      obtain ⟨cs, h3, h4⟩ := ih
      exact ⟨c :: cs, .cons h1 h3, .cons h2 h4⟩
  · rintro ⟨cs, h1, h2⟩
    induction h1 generalizing bs with
    | nil => cases h2; exact .nil
    | cons h _ ih =>
      cases h2 with
      | cons h3 h4 => exact .cons ⟨_, h, h3⟩ (ih h4)

theorem All2.mem_right {α β : Type} {R : α → β → Prop} {as : List α} {bs : List β} (h : All2 R as bs) {b : β} (hb : b ∈ bs) :
    ∃ a ∈ as, R a b := by
  induction h with
  | nil => cases hb
  | cons h _ ih =>
    rcases List.mem_cons.1 hb with rfl | hb
    · exact ⟨_, by simp, h⟩
    · obtain ⟨a, ha, hr⟩ := ih hb; exact ⟨a, by simp [ha], hr⟩

/-! ## Variables of a section -/

theorem parseVariables_iff (env : Env) (stype : Str) (known reg : List Str) (cs : List (Str × List Str))
    (done vs : List Props) :
    parseVariables env stype known reg done cs = some vs ↔
      ∃ new, vs = done ++ new ∧ All2 (fun c v => parseVariable env stype known reg c = some v) cs new ∧
        ∀ a v b, new = a ++ v :: b → env.addOk (done ++ a) v = true := by
  induction cs generalizing done with
  | nil =>
    rw [parseVariables]
    constructor
    · intro h; cases h; exact ⟨[], by simp, .nil, by intro a v b h; simp at h⟩
    · rintro ⟨new, rfl, h, _⟩
      cases h
      simp
  | cons c cs ih =>
    rw [parseVariables, Option.bind_eq_some_iff]
    constructor
    · rintro ⟨v, h1, h2⟩
      split at h2
      · rename_i hadd
        obtain ⟨new, rfl, h3, h4⟩ := (ih _).1 h2
        refine ⟨v :: new, by simp, .cons h1 h3, ?_⟩
        intro a w b he
        cases a with
        | nil =>
          injection he with he _
          subst he
          simpa using hadd
        | cons x a =>
          injection he with he1 he2
          subst he1
          have := h4 a w b he2
          simpa using this
      · cases h2
    · rintro ⟨new, rfl, h1, h2⟩
      cases h1 with
      | @cons _ v _ new h3 h4 =>
        refine ⟨v, h3, ?_⟩
        rw [if_pos (by simpa using h2 [] v new rfl)]
        refine (ih _).2 ⟨new, by simp, h4, ?_⟩
        intro a w b he
        have := h2 (v :: a) w b (by rw [he]; rfl)
        simpa using this

/-! ## Sections -/

theorem not_start {p : Str → Bool} (hp : ∀ l, p l = true → (lstrip l).head? = some '[') {l : Str}
    (h : (lstrip l).head? ≠ some '[') : p l = false := by
  cases hl : p l with
  | false => rfl
  | true => exact absurd (hp l hl) h

theorem isVar_head (l : Str) (h : (varStart l).isSome = true) : (lstrip l).head? = some '[' := by
  obtain ⟨v, hv⟩ := (varStart_isSome l).1 h
  exact varLine_head hv

theorem isHeader_head (l : Str) (h : headerStart l = true) : (lstrip l).head? = some '[' :=
  bracket_head ((headerStart_iff l).1 h)

theorem isTable_head (l : Str) (h : tableStart l = true) : (lstrip l).head? = some '[' :=
  bracket_head ((tableStart_iff l).1 h)

theorem headerTypes_eq : headerTypes = tableKinds ++ ["local".toList] := rfl
theorem tableTypes_eq : tableTypes = tableKinds := rfl

theorem sectEntry_head {e : Str × Str} (h : e.1 ∈ ["name".toList, "type".toList, "module".toList, "process".toList]) :
    e.1.head? ≠ some '[' := by
  generalize e.1 = k at h ⊢
  simp only [List.mem_cons, List.not_mem_nil, or_false] at h
  rcases h with rfl | rfl | rfl | rfl <;> decide

theorem tableEntry_head {e : Str × Str}
    (h : e.1 ∈ ["name".toList, "type".toList, "dependencies".toList, "relative_path".toList]) : e.1.head? ≠ some '[' := by
  generalize e.1 = k at h ⊢
  simp only [List.mem_cons, List.not_mem_nil, or_false] at h
  rcases h with rfl | rfl | rfl | rfl <;> decide

theorem VarMeans.heads {env : Env} (hok : env.Ok) {stype : Str} {P : Str → Prop} {R : Str → Bool} {d : VarDoc} {p : Props}
    (h : VarMeans env stype P R d p) : ∀ e ∈ d.entries, e.1.head? ≠ some '[' := by
  intro e he
  obtain ⟨kvs, ha, _⟩ := h.given
  obtain ⟨kv, _, hg⟩ := ha.mem_left he
  exact hg.key hok

/-- The types after a section. -/
def Types.after (ty : Types) (s : Section) : Types :=
  if s.type = "ddt".toList then ⟨ty.known ++ [s.title], ty.registered ++ [s.title]⟩ else ty

theorem sectHead_iff (tname ttype : Option Str) (h : SectHead) (tt : Str × Str) :
    sectHead tname ttype h = some tt ↔ h.title = some tt.1 ∧ h.type = some tt.2 ∧
      (tt.2 ≠ "scheme".toList → h.process = "UNKNOWN".toList) ∧ matchesTable tt.1 tt.2 tname ttype = true := by
  obtain ⟨a, b, c, d⟩ := h
  obtain ⟨t1, t2⟩ := tt
  unfold sectHead
  simp only
  split
  · rename_i title type
    split
    · rename_i hc
      constructor
      · intro h; cases h
      · rintro ⟨h1, h2, h3, _⟩
        cases h1; cases h2
        exact absurd (h3 hc.1) hc.2
    · rename_i hc
      split
      · rename_i hm
        constructor
        · intro h
          cases h
          refine ⟨rfl, rfl, fun h => ?_, hm⟩
          by_cases hd : d = "UNKNOWN".toList
          · exact hd
          · exact absurd ⟨h, hd⟩ hc
        · rintro ⟨h1, h2, _, _⟩
          cases h1; cases h2; rfl
      · rename_i hm
        constructor
        · intro h; cases h
        · rintro ⟨h1, h2, _, h4⟩
          cases h1; cases h2
          exact absurd h4 hm
  · rename_i hno
    constructor
    · intro h; cases h
    · rintro ⟨rfl, rfl, _, _⟩
      exact absurd rfl (hno t1 t2 rfl)

theorem parseSection_iff {env : Env} (hok : env.Ok) (tname ttype : Option Str) (ty : Types) {l : Str}
    (hl : headerStart l = true) (body : List Str) (s : Section) (ty' : Types) :
    parseSection env tname ttype ty body = some (s, ty') ↔
      (∃ d, SectText (l :: body) d ∧ SectMeans env tname ttype
        (fun n => n ∈ ty.known ∨ (ttype = some "ddt".toList ∧ tname = some n)) (fun n => decide (n ∈ ty.registered)) d s) ∧
      ty' = ty.after s := by
  unfold parseSection
  simp only [Option.bind_eq_some_iff]
  constructor
  · rintro ⟨es, h1, h, h2, ⟨title, type⟩, h3, vs, h4, h5⟩
    cases h5
    obtain ⟨a1, a2, a3, a4, a5⟩ := (sectProps_iff _ _ _).1 h2
    obtain ⟨b1, b2, b3, b4⟩ := (sectHead_iff _ _ _ _).1 h3
    obtain ⟨c1, c2⟩ := (matchesTable_iff _ _ _ _).1 b4
    obtain ⟨new, e, h6, h7⟩ := (parseVariables_iff _ _ _ _ _ _ _).1 h4
    rw [List.nil_append] at e
    subst e
    simp only at b1 b2 b3 c1 c2 h6 ⊢
    have hP : ∀ n, n ∈ (if type = "ddt".toList then ty.known ++ [title] else ty.known) ↔
        (n ∈ ty.known ∨ (ttype = some "ddt".toList ∧ tname = some n)) := by
      intro n
      by_cases hd : type = "ddt".toList
      · obtain ⟨n', e1, e2⟩ := c2
        rw [if_neg (by rw [hd]; decide)] at e2
        subst e2
        rw [if_pos hd, c1, hd, e1]
        simp [eq_comm]
      · rw [if_neg hd, c1]
        exact ⟨.inl, fun h => h.resolve_right fun h => hd (Option.some.inj h.1)⟩
    refine ⟨?_, ?_⟩
    · have h6' := h6.imp (S := fun c v => ∃ d, VarText (c.1 :: c.2) d ∧ VarMeans env type _ _ d v)
        fun c _ v hv => (parseVariable_iff hok hP (fun _ => rfl) _ _ _).1 hv
      obtain ⟨ds, h8, h9⟩ := All2.between.1 h6'
      have h8 := All2.map_left.2 h8
      refine ⟨⟨es, ds⟩, ⟨l, _, _, ?_, (headerStart_iff _).1 hl, (entries_iff _ _).1 h1, h8⟩, ?_⟩
      · rw [← (chunks_split _ body).1]
      · constructor
        · intro e he; exact (a1 e he).1
        · intro v hv; exact (a1 _ (mem_valuesOf.1 hv)).2.1 rfl
        · intro hv; exact (a1 _ (mem_valuesOf.1 hv)).2.2 rfl rfl
        · rw [Option.or_none] at a2; rw [← a2, b1]
        · rw [Option.or_none] at a3; rw [← a3, b2]
        · rw [Option.or_none] at a4; simp only [a4]
        · exact a5
        · exact b3
        · exact c1
        · exact c2
        · exact h9
        · intro a v b he
          have := h7 a v b he
          rwa [List.nil_append] at this
    · unfold Types.after
      by_cases hd : type = "ddt".toList
      · simp only [if_pos hd]
      · simp only [if_neg hd]
  · rintro ⟨⟨⟨es, ds⟩, ⟨l', hdr, vls, e1, e2, e3, e4⟩, hm⟩, rfl⟩
    injection e1 with e0 e1
    subst e0 e1
    obtain ⟨m1, m2, m3, m4, m5, m6, m7, m8, m9, m10, m11, m12⟩ := hm
    simp only at e3 e4 m1 m2 m3 m4 m5 m6 m7 m11
    -- the lines
    have hpre : ∀ x ∈ hdr, (varStart x).isSome = false := fun x hx =>
      not_start (p := fun l => (varStart l).isSome) isVar_head (e3.noBracket (fun e he => sectEntry_head (m1 e he)) x hx)
    have hpiece : ∀ x ∈ vls, Piece (fun l => (varStart l).isSome) x := by
      intro x hx
      obtain ⟨cs, hcs⟩ : ∃ cs, All2 (fun (x : List Str) (v : Props) => ∃ d, VarText x d ∧ VarMeans env s.type _ _ d v) vls cs :=
        ⟨s.vars, All2.between.2 ⟨ds, e4, m11⟩⟩
      obtain ⟨v, _, d, ⟨l1, body1, rfl, hl1, hb1⟩, hmv⟩ := hcs.mem_left hx
      refine ⟨l1, body1, rfl, (varStart_isSome _).2 ⟨_, hl1⟩, fun b hb => ?_⟩
      exact not_start (p := fun l => (varStart l).isSome) isVar_head (hb1.noBracket (hmv.heads hok) b hb)
    obtain ⟨k1, k2⟩ := chunks_text (p := fun l => (varStart l).isSome) hpre hpiece
    have hP : ∀ n, n ∈ (if s.type = "ddt".toList then ty.known ++ [s.title] else ty.known) ↔
        (n ∈ ty.known ∨ (ttype = some "ddt".toList ∧ tname = some n)) := by
      intro n
      by_cases hd : s.type = "ddt".toList
      · obtain ⟨n', e1, e2⟩ := m10
        rw [if_neg (by rw [hd]; decide)] at e2
        subst e2
        rw [if_pos hd, m9, hd, e1]
        simp [eq_comm]
      · rw [if_neg hd, m9]
        exact ⟨.inl, fun h => h.resolve_right fun h => hd (Option.some.inj h.1)⟩
    refine ⟨es, ?_, ⟨some s.title, some s.type, lastValue es "module".toList, s.process⟩, ?_, (s.title, s.type), ?_, s.vars, ?_, ?_⟩
    · rw [k1]; exact (entries_iff _ _).2 e3
    · refine (sectProps_iff _ _ _).2 ⟨fun e he => ⟨m1 e he, fun hk => ?_, fun hk => ?_⟩, ?_, ?_, ?_, ?_⟩
      · refine m2 e.2 (mem_valuesOf.2 ?_)
        rw [← hk]; exact he
      · intro hv
        refine m3 (mem_valuesOf.2 ?_)
        rw [← hk, ← hv]; exact he
      · rw [m4]; rfl
      · rw [m5]; rfl
      · rw [Option.or_none]
      · exact m7
    · exact (sectHead_iff _ _ _ _).2 ⟨rfl, rfl, m8, (matchesTable_iff _ _ _ _).2 ⟨m9, m10⟩⟩
    · refine (parseVariables_iff _ _ _ _ _ _ _).2 ⟨s.vars, rfl, ?_, fun a v b he => by rw [List.nil_append]; exact m12 a v b he⟩
      have h1 := All2.between.2 ⟨ds, e4, m11⟩
      rw [← k2, All2.map_left] at h1
      exact h1.imp fun c _ v hv => (parseVariable_iff hok hP (fun _ => rfl) _ _ _).2 hv
    · obtain ⟨t1, t2, t3, t4, t5⟩ := s
      simp only [Option.some.injEq, Prod.mk.injEq, Section.mk.injEq, true_and, and_true] at *
      refine ⟨m6.symm, ?_⟩
      unfold Types.after
      by_cases hd : t2 = "ddt".toList
      · simp only [if_pos hd]
      · simp only [if_neg hd]

/-! ## The sections of a table -/

theorem parseSection_type {env : Env} (hok : env.Ok) {tname ttype : Option Str} {ty : Types} {c : Str × List Str}
    (hl : headerStart c.1 = true) {s : Section} {ty' : Types} (h : parseSection env tname ttype ty c.2 = some (s, ty')) :
    ttype = some s.type ∧ (s.type ≠ "scheme".toList → tname = some s.title) := by
  obtain ⟨⟨d, _, hm⟩, _⟩ := (parseSection_iff hok tname ttype ty hl c.2 s ty').1 h
  refine ⟨hm.sameType, fun hs => ?_⟩
  obtain ⟨n, h1, h2⟩ := hm.sameName
  rw [if_neg hs] at h2
  rw [h1, h2]

/-- Sections of a scheme table: any number, and the known types do not change. -/
theorem sections_scheme {env : Env} (hok : env.Ok) (tname : Option Str) (ty : Types)
    (cs : List (Str × List Str)) (hc : ∀ c ∈ cs, headerStart c.1 = true) (done ss : List Section) (ty' : Types) :
    sections env tname (some "scheme".toList) ty done cs = some (ss, ty') ↔
      ∃ new, ss = done ++ new ∧ ty' = ty ∧
        All2 (fun c s => parseSection env tname (some "scheme".toList) ty c.2 = some (s, ty)) cs new := by
  have hsing : ¬ (∃ t ∈ some "scheme".toList, t ∈ singletonTypes) := by
    rintro ⟨t, ht, hm⟩
    cases ht
    revert hm; decide
  induction cs generalizing done with
  | nil =>
    rw [sections]
    constructor
    · intro h; cases h; exact ⟨[], by simp, rfl, .nil⟩
    · rintro ⟨new, rfl, rfl, h⟩
      cases h
      simp
  | cons c cs ih =>
    have hc1 := hc c (by simp)
    have ih := ih fun x hx => hc x (by simp [hx])
    rw [sections, Option.bind_eq_some_iff]
    have same : ∀ {s ty1}, parseSection env tname (some "scheme".toList) ty c.2 = some (s, ty1) → ty1 = ty := by
      intro s ty1 h
      obtain ⟨h1, _⟩ := parseSection_type hok hc1 h
      obtain ⟨_, h2⟩ := (parseSection_iff hok _ _ _ hc1 _ _ _).1 h
      rw [h2, Types.after, if_neg]
      injection h1 with h1
      rw [← h1]; decide
    constructor
    · rintro ⟨⟨s, ty1⟩, h1, h2⟩
      rw [if_neg (fun h => hsing h.2)] at h2
      have := same h1
      subst this
      obtain ⟨new, rfl, rfl, h3⟩ := (ih _).1 h2
      exact ⟨s :: new, by simp, rfl, .cons h1 h3⟩
    · rintro ⟨new, rfl, rfl, h⟩
      cases h with
      | @cons _ s _ new h1 h2 =>
        refine ⟨(s, ty'), h1, ?_⟩
        rw [if_neg (fun h => hsing h.2)]
        exact (ih _).2 ⟨new, by simp, rfl, h2⟩

/-- The types after the sections of a table. -/
def Types.afterAll (ty : Types) : List Section → Types
  | [] => ty
  | s :: _ => ty.after s

theorem sections_iff {env : Env} (hok : env.Ok) (tname ttype : Option Str) (ht : ∀ t, ttype = some t → t ∈ tableTypes)
    (ty : Types) (cs : List (Str × List Str)) (hc : ∀ c ∈ cs, headerStart c.1 = true) (ss : List Section) (ty' : Types) :
    sections env tname ttype ty [] cs = some (ss, ty') ↔
      (ttype ≠ some "scheme".toList → cs.length ≤ 1) ∧ ty' = ty.afterAll ss ∧
      All2 (fun c s => parseSection env tname ttype ty c.2 = some (s, ty.after s)) cs ss := by
  have after : ∀ {c s ty1}, headerStart c.1 = true → parseSection env tname ttype ty (c : Str × List Str).2 = some (s, ty1) →
      ty1 = ty.after s := fun hc h => ((parseSection_iff hok _ _ _ hc _ _ _).1 h).2
  by_cases hs : ttype = some "scheme".toList
  · subst hs
    rw [sections_scheme hok _ _ _ hc]
    have hsame : ∀ (c : Str × List Str) s, headerStart c.1 = true →
        (∃ ty1, parseSection env tname (some "scheme".toList) ty c.2 = some (s, ty1)) → ty.after s = ty := by
      rintro c s hc ⟨ty1, h⟩
      obtain ⟨h1, _⟩ := parseSection_type hok hc h
      rw [Types.after, if_neg]
      injection h1 with h1
      rw [← h1]; decide
    constructor
    · rintro ⟨new, h, rfl, ha⟩
      rw [List.nil_append] at h
      subst h
      refine ⟨fun h => absurd rfl h, ?_, ha.imp fun c hcm s hp => ?_⟩
      · cases ha with
        | nil => rfl
        | @cons c s _ _ h1 _ => exact (hsame c s (hc c (by simp)) ⟨_, h1⟩).symm
      · rw [hsame c s (hc c hcm) ⟨_, hp⟩]; exact hp
    · rintro ⟨_, rfl, ha⟩
      have hty : ty.afterAll ss = ty := by
        cases ha with
        | nil => rfl
        | @cons c s _ _ h1 _ => exact hsame c s (hc c (by simp)) ⟨_, h1⟩
      refine ⟨ss, rfl, hty, ha.imp fun c hcm s hp => ?_⟩
      rw [hsame c s (hc c hcm) ⟨_, hp⟩] at hp
      exact hp
  · cases cs with
    | nil =>
      rw [sections]
      constructor
      · intro h; cases h; exact ⟨fun _ => by simp, rfl, .nil⟩
      · rintro ⟨_, rfl, h⟩
        cases h; rfl
    | cons c cs =>
      have hc1 := hc c (by simp)
      rw [sections, Option.bind_eq_some_iff]
      cases cs with
      | nil =>
        constructor
        · rintro ⟨⟨s, ty1⟩, h1, h2⟩
          rw [if_neg (by simp), sections] at h2
          cases h2
          have := after hc1 h1
          subst this
          exact ⟨fun _ => by simp, rfl, .cons h1 .nil⟩
        · rintro ⟨_, rfl, h⟩
          cases h with
          | @cons _ s _ new h1 h2 =>
            cases h2
            refine ⟨(s, ty.after s), h1, ?_⟩
            rw [if_neg (by simp), sections]
            rfl
      | cons c2 cs =>
        constructor
        · rintro ⟨⟨s, ty1⟩, h1, h2⟩
          exfalso
          obtain ⟨htt, _⟩ := parseSection_type hok hc1 h1
          rw [if_neg (by simp), sections, Option.bind_eq_some_iff] at h2
          obtain ⟨r, _, h3⟩ := h2
          rw [if_pos] at h3
          · cases h3
          · refine ⟨rfl, s.type, htt, ?_⟩
            have := ht _ htt
            unfold tableTypes at this
            rcases List.mem_append.1 this with h | h
            · exact h
            · exfalso
              apply hs
              rw [htt, List.mem_singleton.1 h]
        · rintro ⟨h, _⟩
          have := h hs
          simp at this

/-! ## Tables -/

theorem SectText.lines {env : Env} (hok : env.Ok) {tname ttype : Option Str} {P : Str → Prop} {R : Str → Bool}
    {x : List Str} {d : SectDoc} {s : Section} (ht : SectText x d) (hm : SectMeans env tname ttype P R d s) :
    ∃ l body, x = l :: body ∧ Begins [['['], "ccpp-arg-table".toList, [']']] l ∧
      ∀ b ∈ body, (lstrip b).head? ≠ some '[' ∨ ∃ v, VarLine b v := by
  obtain ⟨l, hdr, vls, rfl, hl, he, hv⟩ := ht
  refine ⟨l, _, rfl, hl, fun b hb => ?_⟩
  rcases List.mem_append.1 hb with hb | hb
  · exact .inl (he.noBracket (fun e h => sectEntry_head (hm.keys e h)) b hb)
  · obtain ⟨y, hy, hb⟩ := List.mem_flatten.1 hb
    obtain ⟨p, _, d', ⟨l1, body1, rfl, hl1, hb1⟩, hmv⟩ := (All2.between.2 ⟨_, hv, hm.vars⟩).mem_left hy
    rcases List.mem_cons.1 hb with rfl | hb
    · exact .inr ⟨_, hl1⟩
    · exact .inl (hb1.noBracket (hmv.heads hok) b hb)

theorem TableText.piece {env : Env} (hok : env.Ok) {P : Str → Prop} {R : Str → Bool}
    {x : List Str} {d : TableDoc} {t : Table} (ht : TableText x d) (hm : TableMeans env P R d t) : Piece tableStart x := by
  obtain ⟨l, hdr, sls, rfl, hl, he, hs⟩ := ht
  refine ⟨l, _, rfl, (tableStart_iff l).2 hl, fun b hb => ?_⟩
  rcases List.mem_append.1 hb with hb | hb
  · exact not_start isTable_head (he.noBracket (fun e h => tableEntry_head (hm.keys e h)) b hb)
  · obtain ⟨y, hy, hb⟩ := List.mem_flatten.1 hb
    obtain ⟨s, _, d', hst, hsm⟩ := (All2.between.2 ⟨_, hs, hm.sects⟩).mem_left hy
    obtain ⟨l1, body1, rfl, hl1, hb1⟩ := SectText.lines hok hst hsm
    rcases List.mem_cons.1 hb with rfl | hb
    · cases h : tableStart b with
      | false => rfl
      | true => exact absurd hl1 (table_not_header ((tableStart_iff b).1 h))
    · rcases hb1 b hb with h | ⟨v, hv⟩
      · exact not_start isTable_head h
      · cases h : tableStart b with
        | false => rfl
        | true => exact absurd hv (table_not_var ((tableStart_iff b).1 h))

theorem resolve_eq (env : Env) (path : Option Str) (deps : List Str) :
    resolve env path deps = deps.map fun x => env.abspath (env.join (depDir env path) x) := by
  unfold resolve
  rcases path with _ | (_ | ⟨c, p⟩) <;> rfl

theorem parseTable_iff {env : Env} (hok : env.Ok) (ty : Types) {l : Str} (hl : tableStart l = true) (body : List Str) (t : Table)
    (ty' : Types) :
    parseTable env ty body = some (t, ty') ↔
      (∃ d, TableText (l :: body) d ∧ TableMeans env (fun n => n ∈ ty.known) (fun n => decide (n ∈ ty.registered)) d t) ∧
      ty' = ⟨(ty.afterAll t.sects).known ++ (if t.type = some "ddt".toList then t.name.toList else []),
        (ty.afterAll t.sects).registered⟩ := by
  unfold parseTable
  simp only [Option.bind_eq_some_iff]
  have hend : ∀ (h : TableHead) (r : List Section × Types),
      (if h.type = some "ddt".toList then r.2.known ++ h.name.toList else r.2.known) =
        r.2.known ++ (if h.type = some "ddt".toList then h.name.toList else []) := by
    intro h r
    split <;> simp
  constructor
  · rintro ⟨es, h1, h, h2, ⟨ss, ty1⟩, h3, h4⟩
    rw [hend] at h4
    cases h4
    obtain ⟨a1, a2, a3, a4, a5⟩ := (tableProps_iff _ _ _).1 h2
    rw [Option.or_none] at a2 a3 a4
    have htt : ∀ t, h.type = some t → t ∈ tableTypes := by
      intro t ht
      rw [a3] at ht
      exact (a1 _ (mem_valuesOf.1 (lastValue_mem ht))).2 rfl
    obtain ⟨b1, b2, b3⟩ := (sections_iff hok _ _ htt _ _ (chunks_split headerStart body).2.2 _ _).1 h3
    simp only at b2 ⊢
    subst b2
    refine ⟨?_, rfl⟩
    have b4 := b3.imp (S := fun c s => ∃ d, SectText (c.1 :: c.2) d ∧ SectMeans env h.name h.type _ _ d s)
      fun c hc s hs => ((parseSection_iff hok _ _ _ ((chunks_split headerStart body).2.2 c hc) _ _ _).1 hs).1
    obtain ⟨ds, b5, b6⟩ := All2.between.1 b4
    have b5 := All2.map_left.2 b5
    refine ⟨⟨es, ds⟩, ⟨l, _, _, ?_, (tableStart_iff _).1 hl, (entries_iff _ _).1 h1, b5⟩, ?_⟩
    · rw [← (chunks_split _ body).1]
    · constructor
      · intro e he; exact (a1 e he).1
      · intro v hv; exact (a1 _ (mem_valuesOf.1 hv)).2 rfl
      · exact a2
      · exact a3
      · exact a4
      · exact ⟨_, (depsMean_iff _ _).2 ⟨_, a5, rfl⟩, resolve_eq _ _ _⟩
      · intro hs
        have := b1 hs
        have h5 := b5.length
        rw [List.length_map] at h5
        show ds.length ≤ 1
        omega
      · exact b6
  · rintro ⟨⟨⟨es, ds⟩, ⟨l', hdr, sls, e1, e2, e3, e4⟩, hm⟩, rfl⟩
    injection e1 with e0 e1
    subst e0 e1
    obtain ⟨m1, m2, m3, m4, m5, m6, m7, m8⟩ := hm
    simp only at e3 e4 m1 m2 m3 m4 m5 m6 m7 m8
    have hpre : ∀ x ∈ hdr, headerStart x = false := fun x hx =>
      not_start isHeader_head (e3.noBracket (fun e he => tableEntry_head (m1 e he)) x hx)
    have hpiece : ∀ x ∈ sls, Piece headerStart x := by
      intro x hx
      obtain ⟨s, _, d, hst, hsm⟩ := (All2.between.2 ⟨_, e4, m8⟩).mem_left hx
      obtain ⟨l1, body1, rfl, hl1, hb1⟩ := SectText.lines hok hst hsm
      refine ⟨l1, body1, rfl, (headerStart_iff _).2 hl1, fun b hb => ?_⟩
      rcases hb1 b hb with h | ⟨v, hv⟩
      · exact not_start isHeader_head h
      · cases h : headerStart b with
        | false => rfl
        | true => exact absurd hv (header_not_var ((headerStart_iff b).1 h))
    obtain ⟨k1, k2⟩ := chunks_text hpre hpiece
    obtain ⟨deps, hdm, hdeps⟩ := m6
    obtain ⟨r, hr, rfl⟩ := (depsMean_iff _ _).1 hdm
    have htt : ∀ x, t.type = some x → x ∈ tableTypes := by
      intro x hx
      rw [m4] at hx
      exact m2 x (lastValue_mem hx)
    refine ⟨es, by rw [k1]; exact (entries_iff _ _).2 e3, ⟨t.name, t.type, r, t.path⟩, ?_, (t.sects, ty.afterAll t.sects), ?_, ?_⟩
    · refine (tableProps_iff _ _ _).2 ⟨fun e he => ⟨m1 e he, fun hk => ?_⟩, ?_, ?_, ?_, hr⟩
      · refine m2 e.2 (mem_valuesOf.2 ?_)
        rw [← hk]; exact he
      · rw [Option.or_none]; exact m3
      · rw [Option.or_none]; exact m4
      · rw [Option.or_none]; exact m5
    · have hall := All2.between.2 ⟨ds, e4, m8⟩
      have hlen : ((chunks headerStart (hdr ++ sls.flatten)).2).length = ds.length := by
        have := e4.length
        rw [← k2, List.length_map] at this
        exact this
      rw [← k2, All2.map_left] at hall
      refine (sections_iff hok _ _ htt _ _ (chunks_split headerStart _).2.2 _ _).2 ⟨?_, rfl, ?_⟩
      · intro hs; rw [hlen]; exact m7 hs
      · exact hall.imp fun c hc s hs =>
          (parseSection_iff hok _ _ _ ((chunks_split headerStart _).2.2 c hc) _ _ _).2 ⟨hs, rfl⟩
    · rw [hend]
      obtain ⟨t1, t2, t3, t4, t5⟩ := t
      simp only [Option.some.injEq, Prod.mk.injEq, Table.mk.injEq, true_and, and_true] at *
      rw [hdeps, resolve_eq]

end Ccpp.MF
