import Verif.Props.MetadataVarLine
import Verif.Props.StateMachine
/-!
# Proofs for C62: the meaning of entries
-/
namespace Ccpp.MF

open Ccpp.FDecl (Str Blank commaJoin lstrip_blank lstrip_cons lstrip_split)
open Ccpp.FSub (Begins)

/-! ## Values of keys -/

theorem lastValue_nil {α : Type} (k : Str) : lastValue ([] : List (Str × α)) k = none := rfl

theorem lastValue_cons {α : Type} (e : Str × α) (es : List (Str × α)) (k : Str) :
    lastValue (e :: es) k = (lastValue es k).or (if e.1 = k then some e.2 else none) := by
  unfold lastValue valuesOf
  rw [List.filterMap_cons]
  split
  · rename_i h
    split at h
    · cases h
    · rename_i hk
      rw [if_neg hk, Option.or_none]
  · rename_i b h
    split at h
    · rename_i hk
      cases h
      rw [if_pos hk]
      cases hv : List.filterMap (fun e => if e.1 = k then some e.2 else none) es with
      | nil => rfl
      | cons x xs => rw [List.getLast?_cons_cons, List.getLast?_cons]; rfl
    · cases h

theorem valuesOf_cons {α : Type} (e : Str × α) (es : List (Str × α)) (k : Str) :
    valuesOf (e :: es) k = (if e.1 = k then [e.2] else []) ++ valuesOf es k := by
  unfold valuesOf
  rw [List.filterMap_cons]
  by_cases h : e.1 = k
  · simp [h]
  · simp [h]

theorem lastValue_mem {α : Type} {es : List (Str × α)} {k : Str} {v : α} (h : lastValue es k = some v) :
    v ∈ valuesOf es k := List.mem_of_getLast? h

/-! ## The properties of a variable -/

theorem asRange_eq (d : Str) : dimRange d = asRange d := rfl

theorem varProp_iff {env : Env} (hok : env.Ok) {known : List Str} {P : Str → Prop} (hP : ∀ n, n ∈ known ↔ P n)
    (d : Props) (e : Str × Str) (d' : Props) :
    varProp env known d e = some d' ↔ ∃ kv, Gives env P e kv ∧ d' = d.set kv.1 kv.2 := by
  obtain ⟨k, v⟩ := e
  unfold varProp
  simp only
  by_cases ht : k = "type".toList ∧ env.intrinsic v = false
  · rw [if_pos ht]
    obtain ⟨hk, hi⟩ := ht
    by_cases hm : v ∈ known
    · rw [if_pos hm]
      constructor
      · intro h
        cases h
        refine ⟨("ddt_type".toList, .text v), ?_, rfl⟩
        rw [hk]
        exact .derived hi ((hP v).1 hm)
      · rintro ⟨kv, hg, rfl⟩
        cases hg with
        | derived => rfl
        | dims => exact absurd hk (by decide)
        | plain h => rw [h hk] at hi; cases hi
    · rw [if_neg hm]
      constructor
      · intro h; cases h
      · rintro ⟨kv, hg, rfl⟩
        cases hg with
        | derived _ h => exact absurd ((hP v).2 h) hm
        | dims => exact absurd hk (by decide)
        | plain h => rw [h hk] at hi; cases hi
  · rw [if_neg ht, Option.map_eq_some_iff]
    constructor
    · rintro ⟨w, hw, rfl⟩
      by_cases hd : k = "dimensions".toList
      · subst hd
        obtain ⟨l, rfl⟩ := hok.dims v w hw
        refine ⟨("dimensions".toList, .list (l.map asRange)), .dims hw, ?_⟩
        rfl
      · refine ⟨(k, w), .plain (fun h => ?_) hd hw, ?_⟩
        · cases hi : env.intrinsic v with
          | true => rfl
          | false => exact absurd ⟨h, hi⟩ ht
        · unfold rangesOf; rw [if_neg hd]
    · rintro ⟨kv, hg, rfl⟩
      cases hg with
      | derived hi _ => exact absurd ⟨rfl, hi⟩ ht
      | dims hv => exact ⟨_, hv, rfl⟩
      | plain _ hd hv => exact ⟨_, hv, by unfold rangesOf; rw [if_neg hd]⟩

theorem varProps_iff {env : Env} (hok : env.Ok) {known : List Str} {P : Str → Prop} (hP : ∀ n, n ∈ known ↔ P n)
    (es : List (Str × Str)) (d d' : Props) :
    varProps env known d es = some d' ↔
      ∃ kvs, All2 (Gives env P) es kvs ∧ d' = fun k => (lastValue kvs k).or (d k) := by
  induction es generalizing d with
  | nil =>
    rw [varProps]
    constructor
    · intro h
      cases h
      exact ⟨[], .nil, by funext k; simp [lastValue_nil]⟩
    · rintro ⟨kvs, h, rfl⟩
      cases h
      simp [lastValue_nil]
  | cons e es ih =>
    rw [varProps]
    have key : ∀ (kv : Str × Val) (kvs : List (Str × Val)),
        (fun k => (lastValue kvs k).or (Props.set d kv.1 kv.2 k)) = fun k => (lastValue (kv :: kvs) k).or (d k) := by
      intro kv kvs
      funext k
      rw [lastValue_cons, Option.or_assoc]
      congr 1
      unfold Props.set
      by_cases h : k = kv.1
      · simp [h]
      · rw [if_neg h, if_neg (Ne.symm h)]; rfl
    constructor
    · intro h
      rw [Option.bind_eq_some_iff] at h
      obtain ⟨d1, h1, h2⟩ := h
      obtain ⟨kv, hg, rfl⟩ := (varProp_iff hok hP _ _ _).1 h1
      obtain ⟨kvs, ha, rfl⟩ := (ih _).1 h2
      exact ⟨kv :: kvs, .cons hg ha, key kv kvs⟩
    · rintro ⟨kvs, ha, rfl⟩
      cases ha with
      | @cons _ kv _ kvs hg ha =>
        rw [Option.bind_eq_some_iff]
        exact ⟨_, (varProp_iff hok hP _ _ _).2 ⟨kv, hg, rfl⟩, (ih _).2 ⟨kvs, ha, (key kv kvs).symm⟩⟩

theorem commaSep_eq (dims : List Str) :
    commaSep dims = dims.head?.getD [] ++ (dims.tail.map fun x => [',', ' '] ++ x).flatten := by
  induction dims with
  | nil => rfl
  | cons x xs ih =>
    cases xs with
    | nil => simp [commaSep]
    | cons y ys =>
      rw [commaSep, ih]
      · simp
      · simp

theorem set_other (d : Props) {j k : Str} (v : Val) (h : j ≠ k) : Props.set d k v j = d j := by
  unfold Props.set; rw [if_neg h]

theorem set_same (d : Props) (k : Str) (v : Val) : Props.set d k v k = some v := by
  unfold Props.set; rw [if_pos rfl]

/-- The properties of a variable are those written below its name. -/
theorem parseVariable_iff {env : Env} (hok : env.Ok) {known reg : List Str} {P : Str → Prop} {R : Str → Bool}
    (hP : ∀ n, n ∈ known ↔ P n) (hR : ∀ n, R n = decide (n ∈ reg)) (stype : Str) (c : Str × List Str) (p : Props) :
    parseVariable env stype known reg c = some p ↔ ∃ d, VarText (c.1 :: c.2) d ∧ VarMeans env stype P R d p := by
  have hR' : R = fun n => decide (n ∈ reg) := funext hR
  subst hR'
  obtain ⟨l, body⟩ := c
  unfold parseVariable
  simp only [Option.bind_eq_some_iff]
  have hne : "dimensions".toList ≠ "local_name".toList := by decide
  have plainEq : ∀ (n : Str) (kvs : List (Str × Val)) (es : List (Str × Str)),
      (fun k => (lastValue kvs k).or (Props.set (fun _ => none) "local_name".toList (.text n) k)) =
      fun k => if k = "local_name".toList then some (localName ⟨.plain n, es⟩ (lastValue kvs k)) else lastValue kvs k := by
    intro n kvs es
    funext k
    by_cases hk : k = "local_name".toList
    · subst hk
      rw [set_same, if_pos rfl]
      cases lastValue kvs "local_name".toList <;> rfl
    · rw [set_other _ _ hk, if_neg hk, Option.or_none]
  have refEq : ∀ (nm n : Str) (dims : List Str) (kvs : List (Str × Val)) (es : List (Str × Str)),
      Props.set (fun k => (lastValue kvs k).or (Props.set (fun _ => none) "local_name".toList (.text nm) k))
        "local_name".toList (.text (n ++ '(' :: (commaSep dims ++ [')']))) =
      fun k => if k = "local_name".toList then some (localName ⟨.ref n dims, es⟩ (lastValue kvs k)) else lastValue kvs k := by
    intro nm n dims kvs es
    funext k
    by_cases hk : k = "local_name".toList
    · subst hk
      rw [set_same, if_pos rfl, commaSep_eq]
      rfl
    · rw [set_other _ _ hk, if_neg hk, set_other _ _ hk, Option.or_none]
  constructor
  · rintro ⟨nm, h1, es, h2, d, h3, sub, h4, h5⟩
    obtain ⟨v, hv, hn⟩ := varStart_some h1
    obtain ⟨kvs, ha, rfl⟩ := (varProps_iff hok hP _ _ _).1 h3
    refine ⟨⟨v, es⟩, ⟨l, body, rfl, hv, (entries_iff _ _).1 h2⟩, ?_⟩
    unfold arrayReference at h4
    cases v with
    | plain n =>
      obtain ⟨rfl, hn⟩ := hn
      rw [if_pos ((Chk.fidMatch_iff _).2 (.inl hn))] at h4
      cases h4
      simp only at h5
      split at h5
      · rename_i hacc
        cases h5
        exact ⟨⟨kvs, ha, plainEq _ _ _⟩, fun _ _ h => (nomatch h), hacc⟩
      · cases h5
    | ref n dims =>
      obtain ⟨hf, g2, hg, hd⟩ := hn
      rw [hf, if_neg (by simp), hg] at h4
      simp only at h4
      rw [hd] at h4
      split at h4
      · rename_i vdims hvd
        split at h4
        · rename_i hlen
          cases h4
          simp only at h5
          split at h5
          · rename_i hacc
            cases h5
            refine ⟨⟨kvs, ha, refEq _ _ _ _ _⟩, ?_, hacc⟩
            rintro n' dims' hnd
            simp only [VarName.ref.injEq] at hnd
            obtain ⟨rfl, rfl⟩ := hnd
            refine ⟨vdims, ?_, hlen⟩
            rw [set_other _ _ hne, ← hvd]
          · cases h5
        · cases h4
      · cases h4
  · rintro ⟨⟨v, es⟩, ⟨l', body', hl, hv, he⟩, ⟨kvs, ha, hp⟩, hrank, hacc⟩
    injection hl with hl1 hl2
    subst hl1 hl2
    obtain ⟨nm, h1, hn⟩ := varStart_of hv
    refine ⟨nm, h1, es, (entries_iff _ _).2 he, _, (varProps_iff hok hP _ _ _).2 ⟨kvs, ha, rfl⟩, ?_⟩
    unfold arrayReference
    cases v with
    | plain n =>
      obtain ⟨rfl, hn⟩ := hn
      refine ⟨none, by rw [if_pos ((Chk.fidMatch_iff _).2 (.inl hn))], ?_⟩
      simp only
      rw [plainEq _ _ es, ← hp, if_pos hacc]
    | ref n dims =>
      obtain ⟨hf, g2, hg, hd⟩ := hn
      obtain ⟨vd, hvd, hlen⟩ := hrank n dims rfl
      rw [hp] at hvd
      simp only at hvd
      rw [if_neg hne] at hvd
      refine ⟨some (n ++ '(' :: (commaSep dims ++ [')'])), ?_, ?_⟩
      · rw [hf, if_neg (by simp), hg]
        simp only
        rw [hd, set_other _ _ hne, Option.or_none, hvd]
        simp only
        rw [if_pos hlen]
      · simp only
        rw [refEq _ _ _ _ es, ← hp, if_pos hacc]

/-! ## Lines that are no start lines -/

theorem Gives.key {env : Env} (hok : env.Ok) {P : Str → Prop} {e : Str × Str} {kv : Str × Val} (h : Gives env P e kv) :
    e.1.head? ≠ some '[' := by
  cases h with
  | derived => show "type".toList.head? ≠ some '['; decide
  | dims => show "dimensions".toList.head? ≠ some '['; decide
  | plain _ _ h => exact hok.bracket _ _ _ h

theorem ItemText.noBracket {t : Str} {e : Str × Str} (h : ItemText t e) (hk : e.1.head? ≠ some '[') (r : Str) :
    (lstrip (t ++ r)).head? ≠ some '[' := by
  obtain ⟨ha, hb, hc, hd, htk, htv, h1, h2, h3⟩ := h
  rename_i a k b c v d
  rw [show a ++ k ++ b ++ '=' :: (c ++ v ++ d) ++ r = a ++ (k ++ (b ++ '=' :: (c ++ v ++ d ++ r))) by simp,
    lstrip_blank ha]
  cases k with
  | nil =>
    rw [List.nil_append, lstrip_blank hb, lstrip_cons (by decide)]
    simp
  | cons x k =>
    rw [List.cons_append, lstrip_cons (htk.1 x rfl)]
    intro hx
    injection hx with hx
    subst hx
    exact hk rfl

theorem EntryLine.noBracket {s : Str} {es : List (Str × Str)} (h : EntryLine s es)
    (hk : ∀ e ∈ es, e.1.head? ≠ some '[') : (lstrip s).head? ≠ some '[' := by
  cases h with
  | blank h =>
    rcases h with rfl | ⟨b, c, r, rfl, hb, rfl | rfl⟩
    · simp [lstrip]
    · rw [lstrip_blank hb, lstrip_cons (by decide)]; simp
    · rw [lstrip_blank hb, lstrip_cons (by decide)]; simp
  | items hne hnb ha =>
    cases ha with
    | nil => exact absurd rfl hne
    | @cons t e ts es' h1 h2 =>
      cases ts with
      | nil =>
        have := h1.noBracket (hk e (by simp)) []
        rwa [List.append_nil] at this
      | cons u us => exact h1.noBracket (hk e (by simp)) _

theorem EntryLines.noBracket {ls : List Str} {es : List (Str × Str)} (h : EntryLines ls es)
    (hk : ∀ e ∈ es, e.1.head? ≠ some '[') : ∀ l ∈ ls, (lstrip l).head? ≠ some '[' := by
  induction h with
  | nil => intro l hl; cases hl
  | cons h1 _ ih =>
    intro l hl
    rcases List.mem_cons.1 hl with rfl | hl
    · exact h1.noBracket fun e he => hk e (by simp [he])
    · exact ih (fun e he => hk e (by simp [he])) l hl

theorem begins_bracket {w s : Str} (h : Begins [['['], w, [']']] s) :
    ∃ b r, s = b ++ '[' :: r ∧ Blank b ∧ Begins [w, [']']] r := by
  obtain ⟨b, v, r, rfl, hb, hv, hr⟩ := h
  cases v with
  | nil => cases hv
  | cons c v =>
    cases v with
    | cons d v => have := congrArg List.length hv; simp [lower] at this
    | nil =>
      have hc : c = '[' := (FDecl.toLower_eq '[' (by decide) c).1 (by injection hv)
      subst hc
      exact ⟨b, r, by simp, hb, hr⟩

theorem bracket_head {w s : Str} (h : Begins [['['], w, [']']] s) : (lstrip s).head? = some '[' := by
  obtain ⟨b, r, rfl, hb, _⟩ := begins_bracket h
  rw [lstrip_blank hb, lstrip_cons (by decide)]; rfl

theorem varLine_head {s : Str} {v : VarName} (h : VarLine s v) : (lstrip s).head? = some '[' := by
  obtain ⟨t, rfl⟩ := h.head
  rw [lstrip_cons (by decide)]; rfl

/-- A text with two bracketed words at its beginning. -/
theorem begins_lower {w s : Str} (hw : ∃ c r, w = c :: r ∧ isWs c = false) (h : Begins [['['], w, [']']] s) :
    ∃ t, lstrip s = '[' :: t ∧ lower ((lstrip t).take w.length) = w := by
  obtain ⟨b, r, rfl, hb, b', v, r', rfl, hb', hv, _⟩ := begins_bracket h
  refine ⟨_, by rw [lstrip_blank hb, lstrip_cons (by decide)], ?_⟩
  have hl : v.length = w.length := by rw [← hv]; simp [lower]
  obtain ⟨c, r0, rfl, hc⟩ := hw
  cases v with
  | nil => cases hv
  | cons d v =>
    have hd : isWs d = false := by
      have : d.toLower = c := by injection hv
      rw [← FDecl.toLower_ws, this, hc]
    rw [List.append_assoc, lstrip_blank hb', List.cons_append, lstrip_cons hd, ← List.cons_append, ← hl, List.take_left']
    · exact hv
    · rfl

theorem brackets_differ {w w' s : Str} (hw : ∃ c r, w = c :: r ∧ isWs c = false) (hw' : ∃ c r, w' = c :: r ∧ isWs c = false)
    (n : Nat) (hn : n ≤ w.length) (hn' : n ≤ w'.length) (hd : w.take n ≠ w'.take n)
    (h : Begins [['['], w, [']']] s) : ¬ Begins [['['], w', [']']] s := by
  intro h'
  obtain ⟨t, e1, h1⟩ := begins_lower hw h
  obtain ⟨t', e2, h2⟩ := begins_lower hw' h'
  rw [e1] at e2
  injection e2 with _ e2
  subst e2
  apply hd
  have key : ∀ m, n ≤ m → (lower ((lstrip t).take m)).take n = lower ((lstrip t).take n) := by
    intro m hm
    unfold lower
    rw [← List.map_take, List.take_take, Nat.min_eq_left hm]
  have a := key _ hn
  have b := key _ hn'
  rw [h1] at a
  rw [h2] at b
  rw [a, b]

theorem table_not_header {s : Str} (h : Begins [['['], "ccpp-table-properties".toList, [']']] s) :
    ¬ Begins [['['], "ccpp-arg-table".toList, [']']] s :=
  brackets_differ ⟨'c', _, rfl, by decide⟩ ⟨'c', _, rfl, by decide⟩ 6 (by decide) (by decide) (by decide) h

theorem dash_not_var {w s : Str} {v : VarName} (hw : ∃ c r, w = c :: r ∧ isWs c = false) (hd : '-' ∈ w)
    (h5 : ∀ c ∈ w, isWs c = false ∧ c ≠ '(' ∧ c ≠ ']')
    (h : Begins [['['], w, [']']] s) : ¬ VarLine s v := by
  intro hv
  obtain ⟨t, e, hl⟩ := begins_lower hw h
  -- the name of the variable is followed by a blank, a bracket or a parenthesis
  have key : ∃ n T, lstrip t = n ++ T ∧ Chk.IsName n ∧ ∃ c T', T = c :: T' ∧ (isWs c = true ∨ c = '(' ∨ c = ']') := by
    have name_lstrip : ∀ {n T : Str}, Chk.IsName n → lstrip (n ++ T) = n ++ T := by
      intro n T hn
      obtain ⟨c, r, rfl, hc, hw⟩ := FDecl.IsName.facts hn
      have : isWs c = false := by
        cases h : isWs c with
        | false => rfl
        | true => have := ws_nonword h; rw [hw c (by simp)] at this; cases this
      exact lstrip_cons this
    have tailOf : ∀ {b T : Str} {c : Char}, Blank b → (c = '(' ∨ c = ']') →
        ∃ c' T', b ++ c :: T = c' :: T' ∧ (isWs c' = true ∨ c' = '(' ∨ c' = ']') := by
      intro b T c hb hc
      cases b with
      | nil => exact ⟨c, T, rfl, .inr hc⟩
      | cons d b => exact ⟨d, _, rfl, .inl (hb d List.mem_cons_self)⟩
    cases hv with
    | @plain a n b ha hn hb =>
      rw [lstrip_cons (by decide)] at e
      injection e with _ e
      subst e
      refine ⟨n, b ++ [']'], ?_, hn, tailOf hb (.inr rfl)⟩
      rw [show a ++ n ++ b ++ [']'] = a ++ (n ++ (b ++ [']'])) by simp, lstrip_blank ha, name_lstrip hn]
    | @ref a n b c raw dims ha hn hb hc hd h7 hi =>
      rw [lstrip_cons (by decide)] at e
      injection e with _ e
      subst e
      refine ⟨n, b ++ '(' :: (commaJoin raw ++ ')' :: (c ++ [']'])), ?_, hn, tailOf hb (.inl rfl)⟩
      rw [List.append_assoc, List.append_assoc, lstrip_blank ha, name_lstrip hn]
  obtain ⟨n, T, et, hn, c, T', rfl, hc⟩ := key
  rw [et] at hl
  by_cases hlen : w.length ≤ n.length
  · rw [List.take_append_of_le_length hlen] at hl
    rw [← hl] at hd
    unfold lower at hd
    rw [List.mem_map] at hd
    obtain ⟨x, hx, hxe⟩ := hd
    have : x = '-' := (FDecl.toLower_eq '-' (by decide) x).1 hxe
    subst this
    exact IsName.mem hn (by decide) (List.mem_of_mem_take hx)
  · have hm : c.toLower ∈ w := by
      rw [← hl]
      unfold lower
      refine List.mem_map.2 ⟨c, ?_, rfl⟩
      rw [List.take_append, List.mem_append]
      right
      obtain ⟨m, hm⟩ : ∃ m, w.length - n.length = m + 1 := ⟨w.length - n.length - 1, by omega⟩
      rw [hm, List.take_succ_cons]
      simp
    obtain ⟨f1, f2, f3⟩ := h5 _ hm
    rcases hc with hc | rfl | rfl
    · rw [FDecl.toLower_ws, hc] at f1; cases f1
    · exact f2 rfl
    · exact f3 rfl

theorem header_not_var {s : Str} {v : VarName} (h : Begins [['['], "ccpp-arg-table".toList, [']']] s) : ¬ VarLine s v :=
  dash_not_var ⟨'c', _, rfl, by decide⟩ (by decide) (by decide) h

theorem table_not_var {s : Str} {v : VarName} (h : Begins [['['], "ccpp-table-properties".toList, [']']] s) :
    ¬ VarLine s v :=
  dash_not_var ⟨'c', _, rfl, by decide⟩ (by decide) (by decide) h

end Ccpp.MF
