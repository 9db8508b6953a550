import Verif.Props.MetadataFile
import Verif.Props.ParseObject
/-!
# C62: a metadata file is read as it is written (main theorems)
-/
namespace Ccpp.MF

open Ccpp.FDecl (Str)
open Ccpp.FSub (Begins)

/-- The derived types known after a list of tables. -/
theorem types_known {env : Env} {P : Str → Prop} {R : Str → Bool} {ty : Types} {d : TableDoc} {t : Table}
    (hm : TableMeans env P R d t) (n : Str) :
    n ∈ (ty.afterAll t.sects).known ++ (if t.type = some "ddt".toList then t.name.toList else []) ↔
      n ∈ ty.known ∨ n ∈ ddtNames [t] := by
  have hd : ddtNames [t] = if t.type = some "ddt".toList then t.name.toList else [] := by
    unfold ddtNames
    by_cases h : t.type = some "ddt".toList
    · simp only [List.filterMap_cons, if_pos h]
      cases t.name <;> rfl
    · simp only [List.filterMap_cons, if_neg h, List.filterMap_nil]
  rw [hd]
  have hs : ∀ m, m ∈ (ty.afterAll t.sects).known ↔ m ∈ ty.known ∨ ∃ s r, t.sects = s :: r ∧ s.type = "ddt".toList ∧ s.title = m := by
    intro m
    cases he : t.sects with
    | nil =>
      rw [Types.afterAll]
      exact ⟨.inl, fun h => h.resolve_right (by rintro ⟨s, r, h, _⟩; cases h)⟩
    | cons s r =>
      rw [Types.afterAll, Types.after]
      by_cases h : s.type = "ddt".toList
      · rw [if_pos h, List.mem_append, List.mem_singleton]
        refine or_congr Iff.rfl ⟨fun e => ⟨s, r, rfl, h, e.symm⟩, ?_⟩
        rintro ⟨s', r', e, _, rfl⟩
        cases e; rfl
      · rw [if_neg h]
        refine ⟨.inl, fun h' => h'.resolve_right ?_⟩
        rintro ⟨s', r', e, h'', _⟩
        cases e; exact h h''
  rw [List.mem_append, hs]
  constructor
  · rintro ((h | ⟨s, r, he, h1, rfl⟩) | h)
    · exact .inl h
    · right
      have hms := hm.sects
      rw [he] at hms
      obtain ⟨d', _, hsm⟩ := hms.mem_right (b := s) (by simp)
      rw [hsm.sameType, h1, if_pos rfl]
      obtain ⟨n, e1, e2⟩ := hsm.sameName
      rw [if_neg (by rw [h1]; decide)] at e2
      rw [e1, e2]; simp
    · exact .inr h
  · rintro (h | h)
    · exact .inl (.inl h)
    · exact .inr h

theorem types_registered {env : Env} {P : Str → Prop} {R : Str → Bool} {ty : Types} {d : TableDoc} {t : Table}
    (hm : TableMeans env P R d t) (n : Str) :
    n ∈ (ty.afterAll t.sects).registered ↔ n ∈ ty.registered ∨ n ∈ ddtSections [t] := by
  have hd : ddtSections [t] = if t.type = some "ddt".toList ∧ t.sects ≠ [] then t.name.toList else [] := by
    unfold ddtSections
    by_cases h : t.type = some "ddt".toList ∧ t.sects ≠ []
    · simp only [List.filterMap_cons, if_pos h]
      cases t.name <;> rfl
    · simp only [List.filterMap_cons, if_neg h, List.filterMap_nil]
  rw [hd]
  cases he : t.sects with
  | nil => simp [Types.afterAll]
  | cons s r =>
    have hms := hm.sects
    rw [he] at hms
    obtain ⟨d', _, hsm⟩ := hms.mem_right (b := s) (by simp)
    rw [Types.afterAll, Types.after]
    by_cases h : s.type = "ddt".toList
    · obtain ⟨m, e1, e2⟩ := hsm.sameName
      rw [if_neg (by rw [h]; decide)] at e2
      rw [if_pos h, hsm.sameType, h, if_pos ⟨rfl, by simp⟩, e1, e2]
      simp
    · rw [if_neg h, if_neg]
      · simp
      · rintro ⟨h', _⟩
        rw [hsm.sameType] at h'
        exact h (Option.some.inj h')

/-! ## All tables -/

theorem ddtNames_append (a b : List Table) : ddtNames (a ++ b) = ddtNames a ++ ddtNames b := List.filterMap_append
theorem ddtSections_append (a b : List Table) : ddtSections (a ++ b) = ddtSections a ++ ddtSections b := List.filterMap_append

theorem types_step {env : Env} (hok : env.Ok) {ty0 ty ty1 : Types} {c : Str × List Str} (hc1 : tableStart c.1 = true)
    {done : List Table} {t : Table} (hk : ∀ n, n ∈ ty.known ↔ n ∈ ty0.known ∨ n ∈ ddtNames done)
    (hr : ∀ n, n ∈ ty.registered ↔ n ∈ ty0.registered ∨ n ∈ ddtSections done) (h : parseTable env ty c.2 = some (t, ty1)) :
    (∀ n, n ∈ ty1.known ↔ n ∈ ty0.known ∨ n ∈ ddtNames (done ++ [t])) ∧
    (∀ n, n ∈ ty1.registered ↔ n ∈ ty0.registered ∨ n ∈ ddtSections (done ++ [t])) := by
  obtain ⟨⟨d, _, hm⟩, rfl⟩ := (parseTable_iff hok ty hc1 c.2 t ty1).1 h
  refine ⟨fun n => ?_, fun n => ?_⟩
  · rw [types_known hm, hk, ddtNames_append, List.mem_append, or_assoc]
  · rw [types_registered hm, hr, ddtSections_append, List.mem_append, or_assoc]

theorem tables_known {env : Env} (hok : env.Ok) {ty0 ty' : Types} {cs : List (Str × List Str)} (hc : ∀ c ∈ cs, tableStart c.1 = true)
    {ty : Types} {done : List Table} (hk : ∀ n, n ∈ ty.known ↔ n ∈ ty0.known ∨ n ∈ ddtNames done)
    (hr : ∀ n, n ∈ ty.registered ↔ n ∈ ty0.registered ∨ n ∈ ddtSections done) {ts : List Table}
    (h : tables env ty done cs = some (ts, ty')) :
    (∀ n, n ∈ ty'.known ↔ n ∈ ty0.known ∨ n ∈ ddtNames ts) ∧
    (∀ n, n ∈ ty'.registered ↔ n ∈ ty0.registered ∨ n ∈ ddtSections ts) := by
  induction cs generalizing ty done with
  | nil => rw [tables] at h; cases h; exact ⟨hk, hr⟩
  | cons c cs ih =>
    rw [tables, Option.bind_eq_some_iff] at h
    obtain ⟨⟨t, ty1⟩, h1, h2⟩ := h
    simp only at h2
    split at h2
    · cases h2
    · obtain ⟨s1, s2⟩ := types_step hok (hc c (by simp)) hk hr h1
      exact ih (fun x hx => hc x (by simp [hx])) s1 s2 h2

theorem tables_iff {env : Env} (hok : env.Ok) (ty0 : Types) (cs : List (Str × List Str)) (hc : ∀ c ∈ cs, tableStart c.1 = true)
    (ty : Types) (done : List Table) (hk : ∀ n, n ∈ ty.known ↔ n ∈ ty0.known ∨ n ∈ ddtNames done)
    (hr : ∀ n, n ∈ ty.registered ↔ n ∈ ty0.registered ∨ n ∈ ddtSections done) (ts : List Table) :
    (∃ ty', tables env ty done cs = some (ts, ty')) ↔
    ∃ new docs, ts = done ++ new ∧ All2 (fun c d => TableText (c.1 :: c.2) d) cs docs ∧
      (∀ a t b, new = a ++ t :: b → t.name ∉ (done ++ a).map (·.name)) ∧ docs.length = new.length ∧
      ∀ i d t, docs[i]? = some d → new[i]? = some t →
        TableMeans env (fun n => n ∈ ty0.known ∨ n ∈ ddtNames (done ++ new.take i))
          (fun n => decide (n ∈ ty0.registered ∨ n ∈ ddtSections (done ++ new.take i))) d t := by
  induction cs generalizing ty done with
  | nil =>
    constructor
    · rintro ⟨ty', h⟩
      rw [tables] at h
      cases h
      refine ⟨[], [], by simp, .nil, ?_, rfl, ?_⟩
      · intro a t b h; simp at h
      · intro i d t h; simp at h
    · rintro ⟨new, docs, rfl, h1, _, hl, _⟩
      cases h1
      have : new = [] := List.length_eq_zero_iff.1 hl.symm
      subst this
      exact ⟨ty, by rw [tables, List.append_nil]⟩
  | cons c cs ih =>
    have hc1 := hc c (by simp)
    have eK : (fun n => n ∈ ty.known) = fun n => n ∈ ty0.known ∨ n ∈ ddtNames done := funext fun n => propext (hk n)
    have eR : (fun n => decide (n ∈ ty.registered)) = fun n => decide (n ∈ ty0.registered ∨ n ∈ ddtSections done) :=
      funext fun n => decide_eq_decide.2 (hr n)
    have step := fun t ty1 => types_step hok (ty1 := ty1) (t := t) hc1 hk hr
    constructor
    · rintro ⟨ty', h⟩
      rw [tables, Option.bind_eq_some_iff] at h
      obtain ⟨⟨t, ty1⟩, h1, h2⟩ := h
      simp only at h2
      split at h2
      · cases h2
      · rename_i hnew
        obtain ⟨s1, s2⟩ := step t ty1 h1
        obtain ⟨new, docs, rfl, i1, i2, i3, i4⟩ := (ih (fun x hx => hc x (by simp [hx])) ty1 (done ++ [t]) s1 s2).1 ⟨ty', h2⟩
        obtain ⟨⟨d, ht, hm⟩, _⟩ := (parseTable_iff hok ty hc1 c.2 t ty1).1 h1
        refine ⟨t :: new, d :: docs, by simp, .cons ht i1, ?_, by simp [i3], ?_⟩
        · intro a x b he
          cases a with
          | nil =>
            injection he with he _
            subst he
            rw [List.append_nil]; exact hnew
          | cons y a =>
            injection he with e1 e2
            subst e1
            have := i2 a x b e2
            rwa [List.append_assoc] at this
        · intro i d' t' hd' ht'
          cases i with
          | zero =>
            cases hd'; cases ht'
            rw [List.take_zero, List.append_nil, ← eK, ← eR]
            exact hm
          | succ i =>
            have := i4 i d' t' hd' ht'
            rw [List.take_succ_cons]
            rwa [List.append_assoc] at this
    · rintro ⟨new, docs, rfl, i1, i2, i3, i4⟩
      cases i1 with
      | @cons _ d _ docs ht i1 =>
        cases new with
        | nil => simp at i3
        | cons t new =>
          have hm := i4 0 d t rfl rfl
          rw [List.take_zero, List.append_nil, ← eK, ← eR] at hm
          have hp := (parseTable_iff hok ty hc1 c.2 t _).2 ⟨⟨d, ht, hm⟩, rfl⟩
          obtain ⟨s1, s2⟩ := step t _ hp
          have hnew := i2 [] t new rfl
          rw [List.append_nil] at hnew
          obtain ⟨ty', h⟩ := (ih (fun x hx => hc x (by simp [hx])) _ (done ++ [t]) s1 s2).2
            ⟨new, docs, by simp, i1, fun a x b he => by
              have := i2 (t :: a) x b (by rw [he]; rfl)
              rwa [List.append_assoc], by simpa using i3, fun i d' t' hd' ht' => by
              have := i4 (i + 1) d' t' hd' ht'
              rw [List.take_succ_cons] at this
              rwa [List.append_assoc]⟩
          refine ⟨ty', ?_⟩
          rw [tables, hp, Option.bind_some]
          simp only
          rw [if_neg hnew]
          exact h

theorem names_nodup (ts : List Table) :
    (∀ a t b, ts = a ++ t :: b → t.name ∉ a.map (·.name)) ↔ (ts.map (·.name)).Nodup := by
  constructor
  · intro h
    have : ∀ (us : List Table), us <+: ts → (us.map (·.name)).Nodup := by
      intro us
      obtain ⟨n, hn⟩ : ∃ n, us.length = n := ⟨_, rfl⟩
      induction n generalizing us with
      | zero => intro _; rw [List.length_eq_zero_iff.1 hn]; simp
      | succ n ih =>
        intro hp
        obtain ⟨vs, t, rfl⟩ : ∃ vs t, us = vs ++ [t] := by
          rcases List.eq_nil_or_concat us with rfl | ⟨vs, t, rfl⟩
          · cases hn
          · exact ⟨vs, t, List.concat_eq_append⟩
        have hp' : vs <+: ts := (List.prefix_append vs [t]).trans hp
        obtain ⟨r, hr⟩ := hp
        rw [List.map_append, List.nodup_append]
        refine ⟨ih vs (by simpa using hn) hp', by simp, ?_⟩
        intro x hx y hy
        rw [List.map_singleton, List.mem_singleton] at hy
        subst hy
        rintro rfl
        exact h vs t r (by rw [← hr]; simp) hx
    exact this ts (List.prefix_refl _)
  · rintro h a t b rfl hm
    rw [List.map_append, List.nodup_append] at h
    exact h.2.2 _ hm _ (by simp) rfl

theorem parseFile_iff {env : Env} (hok : env.Ok) (ty : Types) (lines : List Str) (ts : List Table) :
    (∃ ty', parseFile env ty lines = some (ts, ty')) ↔ ∃ docs, FileText lines docs ∧ FileMeans env ty docs ts := by
  have base := fun cs hc => tables_iff hok ty cs hc ty [] (by simp [ddtNames]) (by simp [ddtSections]) ts
  simp only [List.nil_append] at base
  unfold parseFile FileMeans
  constructor
  · rintro ⟨ty', h⟩
    simp only at h
    split at h
    · rename_i hb
      obtain ⟨new, docs, rfl, i1, i2, i3, i4⟩ := (base _ (chunks_split tableStart lines).2.2).1 ⟨ty', h⟩
      refine ⟨docs, ⟨_, _, (chunks_split tableStart lines).1, ?_, All2.map_left.2 i1⟩, (names_nodup _).1 i2, i3, i4⟩
      intro l hl
      exact (isBlank_iff l).1 (List.all_eq_true.1 hb l hl)
    · cases h
  · rintro ⟨docs, ⟨pre, tls, rfl, hpre, ht⟩, hn, hlen, hm⟩
    have hall : ∀ x ∈ tls, Piece tableStart x := by
      intro x hx
      obtain ⟨i, hi⟩ := List.mem_iff_getElem?.1 hx
      have get : ∀ {α β : Type} {R : α → β → Prop} {as : List α} {bs : List β}, All2 R as bs →
          ∀ (i : Nat) (a : α), as[i]? = some a → ∃ b, bs[i]? = some b ∧ R a b := by
        intro α β R as bs h
        induction h with
        | nil => intro i a h; simp at h
        | cons h1 _ ih =>
          intro i a h
          cases i with
          | zero => cases h; exact ⟨_, rfl, h1⟩
          | succ i => exact ih i a h
      obtain ⟨d, hd, htx⟩ := get ht i x hi
      have hlt : i < ts.length := by
        rw [← hlen]; exact (List.getElem?_eq_some_iff.1 hd).1
      exact TableText.piece hok htx (hm i d ts[i] hd (List.getElem?_eq_getElem hlt))
    have hno : ∀ l ∈ pre, tableStart l = false := by
      intro l hl
      refine not_start isTable_head ?_
      rcases hpre l hl with rfl | ⟨b, c, r, rfl, hb, hc⟩
      · simp [lstrip]
      · rw [FDecl.lstrip_blank hb]
        rcases hc with rfl | rfl <;> rw [FDecl.lstrip_cons (by decide)] <;> simp
    obtain ⟨k1, k2⟩ := chunks_text hno hall
    simp only
    rw [k1, if_pos (List.all_eq_true.2 fun l hl => (isBlank_iff l).2 (hpre l hl))]
    rw [← k2, All2.map_left] at ht
    exact (base _ (chunks_split tableStart _).2.2).2 ⟨ts, docs, rfl, ht, (names_nodup _).2 hn, hlen, hm⟩



/-- **C62.**  Reading a metadata file gives the tables `ts` exactly when the logical lines of the file (C24) are a
written form of documents that mean these tables; in particular every other file is refused.  The derived types known
afterwards are those known before and those described by the ddt tables of the file. -/
theorem C62_metadata_file {env : Env} (hok : env.Ok) (ty : Types) (file : List Str) (ts : List Table) :
    ((∃ ty', parseFile env ty (PO.logical file) = some (ts, ty')) ↔
      ∃ docs, FileText (PO.logical file) docs ∧ FileMeans env ty docs ts) ∧
    ∀ ty', parseFile env ty (PO.logical file) = some (ts, ty') → ∀ n, n ∈ ty'.known ↔ n ∈ ty.known ∨ n ∈ ddtNames ts := by
  refine ⟨parseFile_iff hok ty _ ts, fun ty' h => ?_⟩
  unfold parseFile at h
  simp only at h
  split at h
  · exact (tables_known hok (chunks_split tableStart _).2.2 (by simp [ddtNames]) (by simp [ddtSections]) h).1
  · cases h

end Ccpp.MF
