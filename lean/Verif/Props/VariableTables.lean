import Verif.Spec.VariableTables
import Verif.Model.VariableTables
import Verif.Props.SchemeTablesThm
import Verif.Props.FortranParse
/-! # Lemmas for C81: statements -/
namespace Ccpp.VT
open FDecl (Str Blank Tight splitColons splitColons_at splitColons_none)
open ST (Words words words_iff words_of words_cut cut codeOf)

/-! ## Modules -/

theorem modEvent_start (l n : Str) : modEvent l = .start n ↔ ModuleLine l n := by
  unfold ModuleLine
  constructor
  · intro h
    unfold modEvent at h
    cases hw : words l with
    | nil => rw [hw] at h; cases h
    | cons w r =>
      cases r with
      | nil => rw [hw] at h; cases h
      | cons v ws =>
        rw [hw] at h
        simp only at h
        split at h
        · next h1 =>
          split at h
          · cases h
          · next h2 => cases h; exact ⟨w, ws, (words_iff _ _).1 hw, h1, h2⟩
        · split at h <;> cases h
  · rintro ⟨w, ws, hw, h1, h2⟩
    unfold modEvent
    rw [words_of hw]
    simp only [h1, h2, if_true, if_false]

theorem modEvent_stop (l : Str) (t : Option Str) : modEvent l = .stop t ↔ EndModule l t := by
  unfold EndModule
  constructor
  · intro h
    unfold modEvent at h
    cases hw : words l with
    | nil => rw [hw] at h; cases h
    | cons w r =>
      cases r with
      | nil => rw [hw] at h; cases h
      | cons v ws =>
        rw [hw] at h
        simp only at h
        split at h
        · split at h <;> cases h
        · split at h
          · next h2 => cases h; exact ⟨w, v, ws, (words_iff _ _).1 hw, h2.1, h2.2, rfl⟩
          · cases h
  · rintro ⟨w, v, ws, hw, h1, h2, h3⟩
    unfold modEvent
    rw [words_of hw]
    have : ¬(lower w = "module".toList ∨ lower w = "program".toList) := by rw [h1]; decide
    simp only
    rw [if_neg this, if_pos ⟨h1, h2⟩, h3]

theorem noModule_event {l : Str} (h : NoModule l) : modEvent l = .none := by
  cases he : modEvent l with
  | start n => exact absurd ((modEvent_start l n).1 he) (h.1 n)
  | stop t => exact absurd ((modEvent_stop l t).1 he) (h.2 t)
  | none => rfl

/-! ## Types -/

theorem typeWord_iff (w : Str) : typeWord w = true ↔
    (lower w = "type".toList ∨ "type,".toList <+: lower w ∨ "type::".toList <+: lower w) := by
  unfold typeWord
  rw [Bool.or_eq_true, Bool.or_eq_true, beq_iff_eq, List.isPrefixOf_iff_prefix, List.isPrefixOf_iff_prefix, or_assoc]

theorem usage_iff (w v : Str) : usage w v = true ↔ Usage w v := by
  unfold usage Usage
  rw [Bool.or_eq_true, Bool.and_eq_true, Bool.or_eq_true, beq_iff_eq, beq_iff_eq, List.isPrefixOf_iff_prefix, List.isPrefixOf_iff_prefix]

theorem typeWord_head {w : Str} (h : typeWord w = true) : w.head? ≠ some '!' := by
  rw [typeWord_iff] at h
  intro hc
  cases w with
  | nil => cases hc
  | cons c w =>
    cases hc
    have h0 : ∀ k : Str, k.head? = some 't' → k <+: lower ('!' :: w) → False := by
      rintro k hk ⟨r, hr⟩
      cases k with
      | nil => cases hk
      | cons d k =>
        cases hk
        simp only [lower, List.map_cons, List.cons_append, List.cons.injEq] at hr
        exact absurd hr.1 (by decide)
    rcases h with h | h | h
    · exact h0 "type".toList rfl (h ▸ List.prefix_rfl)
    · exact h0 _ rfl h
    · exact h0 _ rfl h

theorem starts_event {l : Str} (h : Starts l) : typeEvent l = .start (typeName (strip (codeOf l))) := by
  obtain ⟨w, ws, hw, h1, h2⟩ := h
  have hcut : cut l = codeOf l := by
    unfold cut
    rw [if_neg]
    · rfl
    · intro hc
      cases l with
      | nil => cases hc
      | cons c l =>
        cases hc
        have := words_of hw
        rw [show codeOf ('!' :: l) = [] by simp [codeOf]] at this
        cases this
  unfold typeEvent
  rw [hcut, words_of hw]
  simp only
  rw [if_pos ((typeWord_iff w).2 h1), if_neg]
  rw [Bool.not_eq_true, Bool.eq_false_iff]
  intro hc
  cases hh : ws.head? with
  | none => rw [hh] at hc; cases hc
  | some v => rw [hh] at hc; exact h2 v hh ((usage_iff w v).1 hc)

theorem not_starts_event {l : Str} (h : ¬Starts l) : ∀ o, typeEvent l ≠ .start o := by
  intro o ho
  unfold typeEvent at ho
  cases hw : words (cut l) with
  | nil => rw [hw] at ho; cases ho
  | cons w ws =>
    rw [hw] at ho
    simp only at ho
    split at ho
    · next h1 =>
      split at ho
      · cases ho
      · next h2 =>
        refine h ⟨w, ws, (words_cut l (typeWord_head h1)).1 hw, (typeWord_iff w).1 h1, fun v hv hu => h2 ?_⟩
        rw [hv]
        exact (usage_iff w v).2 hu
    · split at ho
      · split at ho <;> cases ho
      · cases ho

theorem typeEvent_stop (l : Str) (t : Option Str) : typeEvent l = .stop t ↔ EndType l t := by
  unfold EndType
  constructor
  · intro h
    unfold typeEvent at h
    cases hw : words (cut l) with
    | nil => rw [hw] at h; cases h
    | cons w r =>
      rw [hw] at h
      simp only at h
      split at h
      · split at h <;> cases h
      · cases r with
        | nil => cases h
        | cons v ws =>
          simp only at h
          split at h
          · next h2 =>
            cases h
            exact ⟨w, v, ws, (words_cut l (ST.head_of_lower h2.2 (by decide))).1 hw, h2.2, h2.1, rfl⟩
          · cases h
  · rintro ⟨w, v, ws, hw, h1, h2, h3⟩
    unfold typeEvent
    rw [(words_cut l (ST.head_of_lower h1 (by decide))).2 hw]
    have : typeWord w = false := by
      unfold typeWord; rw [h1]; decide
    simp only [this, Bool.false_eq_true, if_false, h1, h2, h3, and_self, if_true]

theorem neutral_event {l : Str} (h : Neutral l) : typeEvent l = .none := by
  cases he : typeEvent l with
  | start o => exact absurd he (not_starts_event h.1 o)
  | stop t => exact absurd ((typeEvent_stop l t).1 he) (h.2 t)
  | none => rfl

theorem name_tight {n : Str} (h : IsName n) : Tight n := by
  have : ∀ c, isWordC c = true → isWs c = false := by
    intro c hc
    rw [Bool.eq_false_iff]
    intro hw
    simp only [isWs, Bool.or_eq_true, beq_iff_eq] at hw
    rcases hw with ((((rfl | rfl) | rfl) | rfl) | rfl) | rfl <;> exact absurd hc (by decide)
  refine ⟨fun c hc => this c (h.2 c (List.mem_of_mem_head? hc)), fun c hc => this c (h.2 c (List.mem_of_mem_getLast? hc))⟩

theorem name_noParen {n : Str} (h : IsName n) : '(' ∉ n := fun hc => absurd (h.2 _ hc) (by decide)

/-- The name in what follows the attributes -/
theorem nameOf {b n d : Str} (hb : Blank b) (hn : IsName n) (hd : Blank d ∨ ∃ e r, Blank e ∧ d = e ++ '(' :: r) :
    (if (strip (b ++ (n ++ d))).contains '(' then strip ((strip (b ++ (n ++ d))).takeWhile fun c => c != '(') else strip (b ++ (n ++ d))) = n := by
  rw [FDecl.strip_blank_left hb]
  rcases hd with hd | ⟨e, r, he, rfl⟩
  · have : strip (n ++ d) = n := by
      have := FDecl.strip_core (p := []) (fun _ h => nomatch h) (name_tight hn) hd
      simpa using this
    rw [this, if_neg]
    simpa using name_noParen hn
  · have : strip (n ++ (e ++ '(' :: r)) = n ++ (e ++ '(' :: rstrip r) := by
      rw [FDecl.strip_append (name_tight hn) hn.1, Env.rstrip_keep (by decide)]
    rw [this, if_pos (by simp)]
    have hne : ∀ c ∈ n ++ e, (c != '(') = true := by
      intro c hc
      simp only [bne_iff_ne, ne_eq]
      rintro rfl
      rcases List.mem_append.1 hc with hc | hc
      · exact name_noParen hn hc
      · exact absurd (he _ hc) (by decide)
    rw [← List.append_assoc, List.takeWhile_append_of_pos hne]
    simp only [bne_self_eq_false, Bool.false_eq_true, not_false_eq_true, List.takeWhile_cons_of_neg, List.append_nil]
    have := FDecl.strip_core (p := []) (fun _ h => nomatch h) (name_tight hn) he
    simpa using this

theorem params_rstrip {c : Str} (h : Params c) : Params (rstrip c) := by
  rcases h with h | ⟨b, r, hb, rfl⟩
  · left
    rw [ST.rstrip_blank h]; exact fun _ h => nomatch h
  · right
    exact ⟨b, rstrip r, hb, Env.rstrip_keep (by decide)⟩

theorem params_before {b n c : Str} (hb : Blank b) (hn : IsName n) (h : Params c) :
    ∃ d, splitColons.beforeColons (b ++ (n ++ c)) = b ++ (n ++ d) ∧ Params d := by
  have skip : ∀ (p s : Str), (∀ c ∈ p, c ≠ ':') → splitColons.beforeColons (p ++ s) = p ++ splitColons.beforeColons s := by
    intro p s hp
    induction p with
    | nil => rfl
    | cons x p ih =>
      rw [List.cons_append, splitColons.beforeColons.eq_def]
      split
      · next e => injection e with e1 _; exact absurd e1 (hp x (by simp))
      · next e =>
        injection e with e1 e2
        subst e1 e2
        rw [ih (fun c hc => hp c (by simp [hc]))]; rfl
      · next e => cases e
  have hbl : ∀ {b : Str}, Blank b → ∀ c ∈ b, c ≠ ':' := by
    rintro b hb c hc rfl
    exact absurd (hb _ hc) (by decide)
  have hnm : ∀ c ∈ n, c ≠ ':' := by rintro c hc rfl; exact absurd (hn.2 _ hc) (by decide)
  rw [skip _ _ (hbl hb), skip _ _ hnm]
  rcases h with h | ⟨e, r, he, rfl⟩
  · refine ⟨c, ?_, .inl h⟩
    have := skip c [] (hbl h)
    rw [List.append_nil] at this
    rw [this]; simp [splitColons.beforeColons]
  · refine ⟨e ++ '(' :: splitColons.beforeColons r, ?_, .inr ⟨e, _, he, rfl⟩⟩
    rw [skip _ _ (hbl he), show '(' :: r = ['('] ++ r from rfl, skip ['('] r (by simp)]; simp

theorem type_chars {t : Str} (h : lower t = "type".toList) : t ≠ [] ∧ (∀ c ∈ t, isWs c = false) ∧ ':' ∉ t ∧ ' ' ∉ t := by
  have hm : ∀ c ∈ t, c.toLower ∈ ['t', 'y', 'p', 'e'] := by
    intro c hc
    have : c.toLower ∈ lower t := List.mem_map.2 ⟨c, hc, rfl⟩
    rw [h] at this
    exact this
  refine ⟨(by rintro rfl; cases h), fun c hc => ?_, fun hc => absurd (hm ':' hc) (by decide), fun hc => absurd (hm ' ' hc) (by decide)⟩
  rw [Bool.eq_false_iff]
  intro hw
  have hm := hm c hc
  simp only [isWs, Bool.or_eq_true, beq_iff_eq] at hw
  rcases hw with ((((rfl | rfl) | rfl) | rfl) | rfl) | rfl <;> exact absurd hm (by decide)

theorem typeName_def {l n : Str} (h : TypeDef l n) : typeName (strip (codeOf l)) = some n := by
  have tight : ∀ {t : Str}, lower t = "type".toList → Tight t := fun h =>
    ⟨fun c hc => (type_chars h).2.1 c (List.mem_of_mem_head? hc), fun c hc => (type_chars h).2.1 c (List.mem_of_mem_getLast? hc)⟩
  have rs : ∀ (p n c : Str), IsName n → rstrip (p ++ (n ++ c)) = p ++ (n ++ rstrip c) := by
    intro p n c hn
    obtain ⟨q, z, hq⟩ : ∃ q z, n = q ++ [z] := ⟨n.dropLast, n.getLast hn.1, (List.dropLast_append_getLast hn.1).symm⟩
    have hz : isWs z = false := (name_tight hn).2 z (by rw [hq]; simp)
    rw [hq, show p ++ (q ++ [z] ++ c) = (p ++ q) ++ z :: c by simp, Env.rstrip_keep hz]
    simp
  cases h with
  | @colons a t x b c e ha ht hx hb hn hc =>
    have e1 : strip (codeOf l) = (t ++ x) ++ ':' :: ':' :: (b ++ (n ++ rstrip c)) := by
      rw [e, FDecl.strip_blank_left ha, FDecl.strip_append (tight ht) (type_chars ht).1,
        show x ++ ':' :: ':' :: (b ++ (n ++ c)) = (x ++ ':' :: ':' :: b) ++ (n ++ c) by simp, rs _ _ _ hn]
      simp
    obtain ⟨d, hd1, hd2⟩ := params_before hb hn (params_rstrip hc)
    have hno : ¬[':', ':'] <:+: t ++ x ++ [':'] := by
      rw [List.append_assoc]
      intro hi
      have : ∀ t : Str, ':' ∉ t → [':', ':'] <:+: t ++ (x ++ [':']) → [':', ':'] <:+: x ++ [':'] := by
        intro t ht hi
        induction t with
        | nil => exact hi
        | cons y t ih =>
          rw [List.cons_append, List.infix_cons_iff] at hi
          rcases hi with hi | hi
          · obtain ⟨r, hr⟩ := hi
            simp only [List.cons_append, List.cons.injEq] at hr
            exact absurd (by simp [← hr.1]) ht
          · exact ih (fun hc => ht (by simp [hc])) hi
      exact hx.2 (this t (type_chars ht).2.2.1 hi)
    unfold typeName
    rw [e1, splitColons_at _ _ hno]
    simp only [Option.map_some]
    rw [hd1]
    exact congrArg some (nameOf hb hn hd2)
  | @plain a t b c e ha ht hb hn hc hno =>
    have e1 : strip (codeOf l) = t ++ (' ' :: b ++ (n ++ rstrip c)) := by
      rw [e, FDecl.strip_blank_left ha, FDecl.strip_append (tight ht) (type_chars ht).1, rs _ _ _ hn]
    have hsp : ∀ t s : Str, ' ' ∉ t → afterSpace (t ++ ' ' :: s) = some s := by
      intro t s ht
      induction t with
      | nil => simp [afterSpace]
      | cons y t ih =>
        rw [List.cons_append, afterSpace, if_neg (fun h => ht (by simp [h])), ih (fun hc => ht (by simp [hc]))]
    have hno' : ¬[':', ':'] <:+: strip (codeOf l) := by
      intro hi
      obtain ⟨p, q, _, _, hs⟩ := FDecl.strip_split (codeOf l)
      exact hno (hi.trans ⟨p, q, hs.symm⟩)
    unfold typeName
    rw [splitColons_none _ hno', e1, show t ++ (' ' :: b ++ (n ++ rstrip c)) = t ++ ' ' :: (b ++ (n ++ rstrip c)) by simp,
      hsp _ _ (type_chars ht).2.2.2]
    simp only [Option.map_some]
    exact congrArg some (nameOf hb hn (params_rstrip hc))

theorem typeDef_event {l n : Str} (h : TypeDef l n) (hs : Starts l) : typeEvent l = .start (some n) := by
  rw [starts_event hs, typeName_def h]

theorem words_head {s w : Str} {ws : List Str} (h : Words s (w :: ws)) : (lstrip s).head? = w.head? ∧ w ≠ [] := by
  generalize he : w :: ws = ww at h
  cases h with
  | nil _ => cases he
  | @cons a w' r ws' ha hne hs _ _ =>
    cases he
    rw [List.append_assoc, FDecl.lstrip_blank ha]
    cases w with
    | nil => exact absurd rfl hne
    | cons c w => rw [List.cons_append, FDecl.lstrip_cons (hs c (by simp))]; exact ⟨rfl, hne⟩

theorem code_head {l w v : Str} {ws vs : List Str} (h : Words l (w :: ws)) (h' : Words (codeOf l) (v :: vs)) : v.head? = w.head? := by
  have h1 := words_head h
  have h2 := words_head h'
  have hl : l = codeOf l ++ l.dropWhile (fun c => c != '!') := (List.takeWhile_append_dropWhile).symm
  rw [← h1.1, ← h2.1]
  obtain ⟨b, hb, hs⟩ := FDecl.lstrip_split (codeOf l)
  have hne : lstrip (codeOf l) ≠ [] := by
    intro hc
    rw [hc] at h2
    cases v with
    | nil => exact h2.2 rfl
    | cons x v => cases h2.1
  cases hx : lstrip (codeOf l) with
  | nil => exact absurd hx hne
  | cons x r =>
    have hxw : isWs x = false := by
      have := h2.1
      rw [hx] at this
      have hv := h'.solid v (by simp)
      exact (hv.2 x (List.mem_of_mem_head? this.symm)).1
    rw [hx] at hs
    rw [hl, hs, List.append_assoc, FDecl.lstrip_blank hb, List.cons_append, FDecl.lstrip_cons hxw]; rfl

theorem lower_head {w k : Str} {c : Char} (h : k <+: lower w) (hk : k.head? = some c) : ∃ d, w.head? = some d ∧ d.toLower = c := by
  obtain ⟨r, hr⟩ := h
  cases k with
  | nil => cases hk
  | cons x k =>
    cases hk
    cases w with
    | nil => cases hr
    | cons d w =>
      simp only [lower, List.map_cons, List.cons_append, List.cons.injEq] at hr
      exact ⟨d, rfl, hr.1.symm⟩

/-- The first line of a module says nothing about types. -/
theorem module_noType {l n : Str} (h : ModuleLine l n) : typeEvent l = .none := by
  obtain ⟨w, ws, hw, h1, _⟩ := h
  obtain ⟨d, hd, hd'⟩ : ∃ d, w.head? = some d ∧ (d.toLower = 'm' ∨ d.toLower = 'p') := by
    rcases h1 with h | h
    · obtain ⟨d, a, b⟩ := lower_head (w := w) (k := "module".toList) (by rw [h]; exact List.prefix_rfl) rfl
      exact ⟨d, a, .inl b⟩
    · obtain ⟨d, a, b⟩ := lower_head (w := w) (k := "program".toList) (by rw [h]; exact List.prefix_rfl) rfl
      exact ⟨d, a, .inr b⟩
  have key : ∀ {v : Str} {vs : List Str} {k : Str} {c : Char}, Words (codeOf l) (v :: vs) → k <+: lower v → k.head? = some c → c ≠ 'm' → c ≠ 'p' → False := by
    intro v vs k c hv hk hc h1 h2
    obtain ⟨e, he, he'⟩ := lower_head hk hc
    rw [code_head hw hv, hd] at he
    cases he
    rcases hd' with hd' | hd'
    · exact h1 (he'.symm.trans hd')
    · exact h2 (he'.symm.trans hd')
  apply neutral_event
  constructor
  · rintro ⟨v, vs, hv, h2, _⟩
    rcases h2 with h | h | h
    · exact key (k := "type".toList) hv (h ▸ List.prefix_rfl) rfl (by decide) (by decide)
    · exact key hv h rfl (by decide) (by decide)
    · exact key hv h rfl (by decide) (by decide)
  · rintro t ⟨v, _, vs, hv, h2, _⟩
    exact key (k := "end".toList) hv (h2 ▸ List.prefix_rfl) rfl (by decide) (by decide)

end Ccpp.VT
