import Verif.Model.MetadataFile
import Verif.Spec.MetadataFile
import Verif.Props.FortranSchemeMain
/-!
# Proofs for C62: lines
-/
namespace Ccpp.MF

open Ccpp.FDecl (Str Blank commaJoin lstrip_blank rstrip_blank lstrip_cons lstrip_split rstrip_split strip_blank_left)
open Ccpp.FSub (Begins kw kws kws_iff IsKw ident ident_name)

theorem All2.length {α β : Type} {R : α → β → Prop} {as : List α} {bs : List β} (h : All2 R as bs) :
    as.length = bs.length := by
  induction h with
  | nil => rfl
  | cons _ _ ih => simp [ih]

theorem All2.imp {α β : Type} {R S : α → β → Prop} {as : List α} {bs : List β} (h : All2 R as bs)
    (hi : ∀ a ∈ as, ∀ b, R a b → S a b) : All2 S as bs := by
  induction h with
  | nil => exact .nil
  | cons h _ ih => exact .cons (hi _ (by simp) _ h) (ih fun a ha b => hi a (by simp [ha]) b)

theorem mapM_all2 {α β : Type} {f : α → Option β} {l : List α} {r : List β} :
    l.mapM f = some r ↔ All2 (fun a b => f a = some b) l r := by
  induction l generalizing r with
  | nil =>
    constructor
    · intro h; cases h; exact .nil
    · rintro ⟨⟩; rfl
  | cons a l ih =>
    rw [List.mapM_cons]
    constructor
    · intro h
      cases h1 : f a with
      | none => rw [h1] at h; cases h
      | some b =>
        cases h2 : l.mapM f with
        | none => rw [h1, h2] at h; cases h
        | some bs =>
          rw [h1, h2] at h
          cases h
          exact .cons h1 (ih.1 h2)
    · intro h
      cases h with
      | cons h1 h2 => rw [h1, ih.2 h2]; rfl

/-! ## Blank lines -/

theorem isBlank_iff (s : Str) : isBlank s = true ↔ BlankLine s := by
  unfold isBlank BlankLine
  obtain ⟨b, hb, e⟩ := lstrip_split s
  constructor
  · intro h
    rcases Bool.or_eq_true _ _ ▸ h with h | h
    · exact .inl (List.isEmpty_iff.1 h)
    · refine .inr ?_
      split at h
      · rename_i r hr; exact ⟨b, '#', r, by rw [← hr]; exact e, hb, .inl rfl⟩
      · rename_i r hr; exact ⟨b, ';', r, by rw [← hr]; exact e, hb, .inr rfl⟩
      · cases h
  · rintro (rfl | ⟨b', c, r, rfl, hb', rfl | rfl⟩)
    · rfl
    · rw [lstrip_blank hb', lstrip_cons (by decide)]; simp
    · rw [lstrip_blank hb', lstrip_cons (by decide)]; simp

/-! ## Trimmed texts -/

theorem strip_eq_comm (s : Str) : strip s = rstrip (lstrip s) := by
  unfold strip; rw [Ccpp.Env.lstrip_rstrip_comm]

theorem trimmed_rstrip {k : Str} (h : ∀ c, k.getLast? = some c → isWs c = false) : rstrip k = k := by
  unfold rstrip
  cases hk : k.reverse with
  | nil => rw [List.reverse_eq_nil_iff] at hk; subst hk; rfl
  | cons c t =>
    have : k = t.reverse ++ [c] := by rw [← List.reverse_reverse k, hk, List.reverse_cons]
    have hc := h c (by rw [this]; simp)
    rw [List.dropWhile_cons_of_neg (by simp [hc]), ← hk, List.reverse_reverse]

theorem trimmed_lstrip {k : Str} (h : ∀ c, k.head? = some c → isWs c = false) : lstrip k = k := by
  cases k with
  | nil => rfl
  | cons c t => exact lstrip_cons (h c rfl)

theorem strip_pad {a k b : Str} (ha : Blank a) (hb : Blank b) (hk : Trimmed k) : strip (a ++ k ++ b) = k := by
  rw [List.append_assoc, strip_blank_left ha]
  unfold strip
  rw [rstrip_blank hb, trimmed_rstrip hk.2, trimmed_lstrip hk.1]

theorem lstrip_head (s : Str) : ∀ c, (lstrip s).head? = some c → isWs c = false := by
  intro c h
  induction s with
  | nil => cases h
  | cons d s ih =>
    unfold lstrip at h ih
    by_cases hd : isWs d = true
    · rw [List.dropWhile_cons_of_pos hd] at h; exact ih h
    · rw [List.dropWhile_cons_of_neg hd] at h
      injection h with h
      subst h; simpa using hd

theorem rstrip_last (s : Str) : ∀ c, (rstrip s).getLast? = some c → isWs c = false := by
  intro c h
  refine lstrip_head s.reverse c ?_
  rw [rstrip, List.getLast?_reverse] at h
  exact h

theorem strip_trimmed (s : Str) : Trimmed (strip s) := by
  refine ⟨lstrip_head _, ?_⟩
  rw [strip_eq_comm]
  exact rstrip_last _

theorem strip_split (s : Str) : ∃ a b, Blank a ∧ Blank b ∧ s = a ++ strip s ++ b := by
  obtain ⟨b, hb, e⟩ := rstrip_split s
  obtain ⟨a, ha, e'⟩ := lstrip_split (rstrip s)
  refine ⟨a, b, ha, hb, ?_⟩
  unfold strip
  rw [← e', ← e]

theorem blank_not {b : Str} (hb : Blank b) {c : Char} (hc : isWs c = false) : c ∉ b := by
  intro h; rw [hb c h] at hc; cases hc

theorem strip_not {s : Str} {c : Char} (h : c ∉ s) : c ∉ strip s := by
  obtain ⟨a, b, _, _, e⟩ := strip_split s
  intro hc; apply h; rw [e]; simp [hc]

/-! ## Items -/

theorem takeWhile_ne {c : Char} {a b : Str} (h : c ∉ a) : (a ++ c :: b).takeWhile (· != c) = a := by
  rw [List.takeWhile_append_of_pos (by intro x hx; simp; rintro rfl; exact h hx)]
  simp

theorem dropWhile_ne {c : Char} {a b : Str} (h : c ∉ a) : (a ++ c :: b).dropWhile (· != c) = c :: b := by
  rw [List.dropWhile_append_of_pos (by intro x hx; simp; rintro rfl; exact h hx)]
  simp

theorem split_first {c : Char} {s : Str} (h : c ∈ s) :
    ∃ a b, s = a ++ c :: b ∧ c ∉ a := by
  obtain ⟨a, b, e, h⟩ := List.eq_append_cons_of_mem h
  exact ⟨a, b, e, h⟩

theorem configItem_eq {a b : Str} (h : '=' ∉ a) : configItem (a ++ '=' :: b) = some (lower (strip a), strip b) := by
  unfold configItem
  rw [if_pos (by simp), takeWhile_ne h, dropWhile_ne h]; rfl

theorem configItem_iff {t : Str} {e : Str × Str} (ht : '|' ∉ t) : configItem t = some e ↔ ItemText t e := by
  constructor
  · intro h
    by_cases hm : '=' ∈ t
    · obtain ⟨k, v, rfl, hk⟩ := split_first hm
      rw [configItem_eq hk] at h
      cases h
      obtain ⟨a, b, ha, hb, ek⟩ := strip_split k
      obtain ⟨c, d, hc, hd, ev⟩ := strip_split v
      have := ItemText.mk (k := strip k) (v := strip v) ha hb hc hd (strip_trimmed _) (strip_trimmed _)
        (strip_not hk) (strip_not fun h => ht (by simp [h])) (strip_not fun h => ht (by simp [h]))
      rwa [← ek, ← ev] at this
    · unfold configItem at h; rw [if_neg hm] at h; cases h
  · rintro ⟨ha, hb, hc, hd, hk, hv, h1, h2, h3⟩
    rw [configItem_eq, strip_pad ha hb hk, strip_pad hc hd hv]
    simp only [List.mem_append, not_or]
    exact ⟨⟨blank_not ha (by decide), h1⟩, blank_not hb (by decide)⟩

theorem ItemText.bar {t : Str} {e : Str × Str} (h : ItemText t e) : '|' ∉ t := by
  obtain ⟨ha, hb, hc, hd, hk, hv, h1, h2, h3⟩ := h
  simp only [List.mem_append, List.mem_cons, not_or]
  exact ⟨⟨⟨blank_not ha (by decide), h2⟩, blank_not hb (by decide)⟩, by decide,
    ⟨blank_not hc (by decide), h3⟩, blank_not hd (by decide)⟩

theorem configItem_left {b t : Str} (hb : Blank b) : configItem (b ++ t) = configItem t := by
  by_cases hm : '=' ∈ t
  · obtain ⟨k, v, rfl, hk⟩ := split_first hm
    rw [← List.append_assoc, configItem_eq hk, configItem_eq, strip_blank_left hb]
    simp [hk, blank_not hb (c := '=') (by decide)]
  · have : '=' ∉ b ++ t := by simp [hm, blank_not hb (c := '=') (by decide)]
    unfold configItem
    rw [if_neg hm, if_neg this]

theorem strip_blank_right {s b : Str} (hb : Blank b) : strip (s ++ b) = strip s := by
  unfold strip; rw [rstrip_blank hb]

theorem configItem_right {b t : Str} (hb : Blank b) : configItem (t ++ b) = configItem t := by
  by_cases hm : '=' ∈ t
  · obtain ⟨k, v, rfl, hk⟩ := split_first hm
    rw [List.append_assoc, List.cons_append, configItem_eq hk, configItem_eq hk, strip_blank_right hb]
  · have : '=' ∉ t ++ b := by simp [hm, blank_not hb (c := '=') (by decide)]
    unfold configItem
    rw [if_neg hm, if_neg this]

/-! ## Lines of items -/

theorem splitOn_left_mapM {b : Str} (hb : Blank b) (s : Str) :
    (Chk.splitOn '|' (b ++ s)).mapM configItem = (Chk.splitOn '|' s).mapM configItem := by
  induction b with
  | nil => rfl
  | cons c b ih =>
    have ih := ih fun x hx => hb x (List.mem_cons_of_mem _ hx)
    have hc := hb c List.mem_cons_self
    rw [List.cons_append, Chk.splitOn, if_neg (by rintro rfl; revert hc; decide), ← ih]
    cases h : Chk.splitOn '|' (b ++ s) with
    | nil => exact absurd h (Chk.splitOn_ne_nil _ _)
    | cons t ts =>
      simp only [List.mapM_cons]
      have : configItem (c :: t) = configItem t :=
        configItem_left (b := [c]) (t := t) (by intro x hx; rw [List.mem_singleton.1 hx]; exact hc)
      rw [this]

theorem splitOn_right_mapM {b : Str} (hb : Blank b) (s : Str) :
    (Chk.splitOn '|' (s ++ b)).mapM configItem = (Chk.splitOn '|' s).mapM configItem := by
  have key : ∀ s : Str, ∃ i x, Chk.splitOn '|' s = i ++ [x] ∧ Chk.splitOn '|' (s ++ b) = i ++ [x ++ b] := by
    intro s
    induction s with
    | nil => exact ⟨[], [], rfl, by rw [List.nil_append, Chk.splitOn_item _ _ (blank_not hb (by decide))]; rfl⟩
    | cons c s ih =>
      obtain ⟨i, x, e1, e2⟩ := ih
      rw [List.cons_append]
      by_cases hc : c = '|'
      · subst hc
        refine ⟨[] :: i, x, ?_, ?_⟩
        · rw [Chk.splitOn, if_pos rfl, e1]; rfl
        · rw [Chk.splitOn, if_pos rfl, e2]; rfl
      · cases i with
        | nil =>
          refine ⟨[], c :: x, ?_, ?_⟩
          · rw [Chk.splitOn, if_neg hc, e1]; rfl
          · rw [Chk.splitOn, if_neg hc, e2]; rfl
        | cons y i =>
          refine ⟨(c :: y) :: i, x, ?_, ?_⟩
          · rw [Chk.splitOn, if_neg hc, e1]; rfl
          · rw [Chk.splitOn, if_neg hc, e2]; rfl
  obtain ⟨i, x, e1, e2⟩ := key s
  rw [e1, e2, List.mapM_append, List.mapM_append]
  simp only [List.mapM_cons, configItem_right hb]

theorem splitOn_strip_mapM (s : Str) :
    (Chk.splitOn '|' (strip s)).mapM configItem = (Chk.splitOn '|' s).mapM configItem := by
  obtain ⟨a, b, ha, hb, e⟩ := strip_split s
  conv => rhs; rw [e]
  rw [splitOn_right_mapM hb, splitOn_left_mapM ha]

theorem barJoin_splitOn (s : Str) : barJoin (Chk.splitOn '|' s) = s := by
  induction s with
  | nil => rfl
  | cons c s ih =>
    by_cases hc : c = '|'
    · subst hc
      rw [Chk.splitOn, if_pos rfl]
      cases h : Chk.splitOn '|' s with
      | nil => exact absurd h (Chk.splitOn_ne_nil _ _)
      | cons t ts => rw [h] at ih; rw [barJoin, List.nil_append, ih]; simp
    · rw [Chk.splitOn, if_neg hc]
      cases h : Chk.splitOn '|' s with
      | nil => exact absurd h (Chk.splitOn_ne_nil _ _)
      | cons t ts =>
        rw [h] at ih
        cases ts with
        | nil => rw [← ih]; rfl
        | cons u us => rw [← ih]; rfl

theorem splitOn_barJoin (ts : List Str) (hne : ts ≠ []) (h : ∀ t ∈ ts, '|' ∉ t) :
    Chk.splitOn '|' (barJoin ts) = ts := by
  induction ts with
  | nil => exact absurd rfl hne
  | cons t ts ih =>
    cases ts with
    | nil => exact Chk.splitOn_item _ _ (h t (by simp))
    | cons t' ts =>
      rw [barJoin, Chk.splitOn_append _ _ _ (h t (by simp)), ih (by simp) (fun x hx => h x (by simp [hx]))]
      simp

theorem splitOn_no (sep : Char) (s : Str) : ∀ t ∈ Chk.splitOn sep s, sep ∉ t := by
  induction s with
  | nil => intro t ht; rw [List.mem_singleton.1 ht]; simp
  | cons c s ih =>
    intro t ht
    rw [Chk.splitOn] at ht
    split at ht
    · rcases List.mem_cons.1 ht with rfl | ht
      · simp
      · exact ih t ht
    · rename_i hc
      split at ht
      · rw [List.mem_singleton.1 ht]; simp [Ne.symm hc]
      · rename_i u us hu
        rw [hu] at ih
        rcases List.mem_cons.1 ht with rfl | ht
        · simp only [List.mem_cons, not_or]
          exact ⟨Ne.symm hc, ih u (by simp)⟩
        · exact ih t (by simp [ht])

theorem All2.mem_left {α β : Type} {R : α → β → Prop} {as : List α} {bs : List β} (h : All2 R as bs) {a : α} (ha : a ∈ as) :
    ∃ b ∈ bs, R a b := by
  induction h with
  | nil => cases ha
  | cons h _ ih =>
    rcases List.mem_cons.1 ha with rfl | ha
    · exact ⟨_, by simp, h⟩
    · obtain ⟨b, hb, hr⟩ := ih ha; exact ⟨b, by simp [hb], hr⟩

/-- **The entries of a line** are what `_parse_config_line` returns. -/
theorem configLine_iff (s : Str) (es : List (Str × Str)) : configLine s = some es ↔ EntryLine s es := by
  unfold configLine
  constructor
  · intro h
    by_cases hb : isBlank s = true
    · rw [if_pos hb] at h; cases h; exact .blank ((isBlank_iff s).1 hb)
    · rw [if_neg hb, splitOn_strip_mapM, mapM_all2] at h
      have := EntryLine.items (its := Chk.splitOn '|' s) (es := es) (Chk.splitOn_ne_nil _ _)
        (by rw [barJoin_splitOn, ← isBlank_iff]; exact hb)
        (h.imp fun a ha b hab => (configItem_iff (splitOn_no _ _ a ha)).1 hab)
      rwa [barJoin_splitOn] at this
  · rintro (hb | ⟨hne, hnb, hall⟩)
    · rw [if_pos ((isBlank_iff s).2 hb)]
    · rw [if_neg (by rw [isBlank_iff]; exact hnb), splitOn_strip_mapM, mapM_all2,
        splitOn_barJoin _ hne fun t ht => ?_]
      · exact hall.imp fun a ha b hab => (configItem_iff hab.bar).2 hab
      · obtain ⟨b, _, hab⟩ := hall.mem_left ht; exact hab.bar

theorem entries_iff (ls : List Str) (es : List (Str × Str)) : entries ls = some es ↔ EntryLines ls es := by
  unfold entries
  induction ls generalizing es with
  | nil =>
    constructor
    · intro h; cases h; exact .nil
    · rintro ⟨⟩; rfl
  | cons l ls ih =>
    rw [List.mapM_cons]
    constructor
    · intro h
      cases h1 : configLine l with
      | none => rw [h1] at h; cases h
      | some e =>
        cases h2 : ls.mapM configLine with
        | none => rw [h1, h2] at h; cases h
        | some fs =>
          rw [h1, h2] at h
          cases h
          exact .cons ((configLine_iff _ _).1 h1) ((ih _).1 (by rw [h2]; rfl))
    · intro h
      cases h with
      | cons h1 h2 =>
        rw [(configLine_iff _ _).2 h1]
        have := (ih _).2 h2
        cases h3 : ls.mapM configLine with
        | none => rw [h3] at this; cases this
        | some fs => rw [h3] at this; cases this; rfl

/-! ## Start lines -/

theorem bracket_iff {w : Str} (hw : IsKw w) (s : Str) : bracket w s = true ↔ Begins [['['], w, [']']] s := by
  have hk := kws_iff [['['], w, [']']] (by
    intro x hx
    simp only [List.mem_cons, List.not_mem_nil, or_false] at hx
    rcases hx with rfl | rfl | rfl
    · exact ⟨_, _, rfl, by decide⟩
    · exact hw
    · exact ⟨_, _, rfl, by decide⟩) s
  have e : kws [['['], w, [']']] s = (((kw ['['] s).bind (kw w)).bind (kw [']'])) := by
    simp only [kws]
    cases kw ['['] s with
    | none => rfl
    | some a =>
      simp only [Option.bind_some]
      cases kw w a with
      | none => rfl
      | some b =>
        simp only [Option.bind_some]
        cases kw [']'] b <;> rfl
  unfold bracket
  rw [← e, Bool.and_eq_true, hk]
  constructor
  · exact And.right
  · intro h
    refine ⟨?_, h⟩
    obtain ⟨b, v, r, rfl, hb, hv, _⟩ := h
    cases v with
    | nil => cases hv
    | cons c v =>
      cases v with
      | cons d v => have := congrArg List.length hv; simp [lower] at this
      | nil =>
        have hc : c = '[' := (FDecl.toLower_eq '[' (by decide) c).1 (by injection hv)
        subst hc
        rw [Bool.not_eq_true', ← Bool.not_eq_true, isBlank_iff]
        rintro (h | ⟨b', c', r', h, hb', hc'⟩)
        · simp at h
        · have := congrArg lstrip h
          rw [List.append_assoc, lstrip_blank hb, lstrip_blank hb'] at this
          rw [show ['['] ++ r = '[' :: r from rfl, lstrip_cons (by decide)] at this
          rcases hc' with rfl | rfl <;> rw [lstrip_cons (by decide)] at this <;> cases this

theorem tableStart_iff (s : Str) : tableStart s = true ↔ Begins [['['], "ccpp-table-properties".toList, [']']] s :=
  bracket_iff ⟨_, _, rfl, by decide⟩ s

theorem headerStart_iff (s : Str) : headerStart s = true ↔ Begins [['['], "ccpp-arg-table".toList, [']']] s :=
  bracket_iff ⟨_, _, rfl, by decide⟩ s

end Ccpp.MF
