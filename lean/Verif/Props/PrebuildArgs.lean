import Verif.Spec.PrebuildArgs
import Verif.Props.PrebuildRefs
/-!
# C74: the arguments of the group and suite caps of ccpp_prebuild
-/
namespace Ccpp.PA
open PB (Str IsName IsLiteral joined)

/-! ## Intents -/

/-- An intent becomes wider -/
def Up (a b : Intent) : Prop := b = a ∨ b = .inout

theorem Up.refl (a : Intent) : Up a a := Or.inl rfl
theorem Up.trans {a b c : Intent} (h1 : Up a b) (h2 : Up b c) : Up a c := by
  rcases h2 with rfl | rfl
  · exact h1
  · exact Or.inr rfl
theorem Up.covers {a b i : Intent} (h : Up a b) (hc : Covers a i) : Covers b i := by
  rcases h with rfl | rfl
  · exact hc
  · exact ⟨fun _ => Or.inr rfl, fun _ => Or.inr rfl⟩
theorem Up.out {a b : Intent} (h : Up a b) (hb : b = .out) : a = .out := by
  rcases h with rfl | rfl
  · exact hb
  · cases hb
theorem Up.inn {a b : Intent} (h : Up a b) (hb : b = .in) : a = .in := by
  rcases h with rfl | rfl
  · exact hb
  · cases hb
theorem covers_refl (i : Intent) : Covers i i := ⟨id, id⟩
theorem covers_inout (i : Intent) : Covers .inout i := ⟨fun _ => Or.inr rfl, fun _ => Or.inr rfl⟩
theorem reads_iff (k : Intent) : Reads k ↔ k ≠ .out := by cases k <;> simp [Reads]

theorem rule1_up (b : Bool) (i o : Intent) : Up o (rule1 b i (some o)) := by
  cases o <;> simp only [rule1] <;> (try split) <;> simp [Up]
theorem rule1_covers (i : Intent) (o : Option Intent) : Covers (rule1 true i o) i := by
  cases o with
  | none => exact covers_refl i
  | some o => cases o <;> cases i <;> simp [rule1, Covers, Reads, Writes]
theorem rule1_index (i : Intent) (o : Option Intent) : rule1 false i o ≠ .out := by
  cases o with
  | none => simp [rule1]
  | some o => cases o <;> simp [rule1]
theorem rule1_again (b : Bool) (i o : Intent) : rule1 b i (some o) ≠ .out := by
  cases o <;> simp only [rule1] <;> (try split) <;> simp
theorem rule1_in {b : Bool} {i : Intent} {o : Option Intent} (h : rule1 b i o ≠ .in) : (∃ k, o = some k ∧ k ≠ .in) ∨ (b = true ∧ i ≠ .in) := by
  cases o with
  | none =>
    cases b with
    | false => simp [rule1] at h
    | true => exact Or.inr ⟨rfl, by simpa [rule1] using h⟩
  | some o =>
    cases o with
    | «in» =>
      simp only [rule1] at h
      split at h
      · rename_i hc; exact Or.inr hc
      · exact absurd rfl h
    | out => exact Or.inl ⟨_, rfl, by decide⟩
    | inout => exact Or.inl ⟨_, rfl, by decide⟩

theorem rule2_up (i o : Intent) : Up o (rule2 i o) := by
  cases o <;> simp only [rule2] <;> (try split) <;> simp [Up]
theorem rule2_covers (i o : Intent) : Covers (rule2 i o) i := by
  cases o <;> cases i <;> simp [rule2, Covers, Reads, Writes]
theorem rule2_in {i o : Intent} (h : rule2 i o ≠ .in) : o ≠ .in ∨ i ≠ .in := by
  cases o <;> cases i <;> simp [rule2] at h ⊢

/-! ## The host -/

theorem find_mem {h : List HVar} {n : Str} {v : HVar} (hf : find h n = some v) : v ∈ h ∧ v.std = n := by
  unfold find at hf
  exact ⟨List.mem_of_find?_eq_some hf, by simpa using List.find?_some hf⟩

theorem find_of_mem {h : List HVar} (hu : (h.map (·.std)).Nodup) {v : HVar} (hv : v ∈ h) : find h v.std = some v := by
  unfold find
  induction h with
  | nil => cases hv
  | cons w h ih =>
    simp only [List.map_cons, List.nodup_cons] at hu
    rcases List.mem_cons.1 hv with rfl | hv
    · simp
    · have : w.std ≠ v.std := fun e => hu.1 (e ▸ List.mem_map_of_mem hv)
      rw [List.find?_cons_of_neg (by simpa using this)]
      exact ih hu.2 hv

theorem intersperse_joined : ∀ (k : Nat), (List.replicate k ':').intersperse ',' = joined ',' (List.replicate k [':'])
  | 0 => rfl
  | 1 => rfl
  | k + 2 => by
    have := intersperse_joined (k + 1)
    simp only [List.replicate_succ, List.intersperse, joined] at this ⊢
    rw [this]; rfl

theorem whole_iff (x l : Str) : Whole x l ↔ ∃ k, k ≤ 15 ∧ l = x ++ dimsString k := by
  unfold Whole dimsString
  constructor
  · rintro (rfl | ⟨k, h1, h2, rfl⟩)
    · exact ⟨0, by omega, by simp⟩
    · exact ⟨k, h2, by rw [if_neg (by omega), intersperse_joined]⟩
  · rintro ⟨k, h1, rfl⟩
    by_cases hk : k = 0
    · left; simp [hk]
    · right; exact ⟨k, by omega, h1, by rw [if_neg hk, intersperse_joined]⟩

theorem dimsString_ends (k : Nat) : Ends (dimsString k) := by
  unfold dimsString
  split
  · exact Or.inl rfl
  · exact Or.inr ⟨_, _, rfl, by decide⟩

theorem name_takeWhile {x v : Str} (hx : IsName x) (hv : Ends v) : (x ++ v).takeWhile plainC = x := by
  rw [takeWhile_ends hv, takeWhile_all (IsName.plain hx)]

theorem whole_name {x l : Str} (hx : IsName x) (h : Whole x l) : l.takeWhile plainC = x := by
  obtain ⟨k, _, rfl⟩ := (whole_iff x l).1 h
  exact name_takeWhile hx (dimsString_ends k)

theorem root_takeWhile {s x : Str} (h : Root s x) : s.takeWhile plainC = x := by
  obtain ⟨hx, v, rfl, hv⟩ := h
  refine name_takeWhile hx ?_
  rcases hv with rfl | ⟨r, rfl | rfl⟩
  · exact Or.inl rfl
  · exact Or.inr ⟨_, _, rfl, by decide⟩
  · exact Or.inr ⟨_, _, rfl, by decide⟩

theorem stdOf_some {h : List HVar} {l p : Str} (hs : stdOf h l = some p) : ∃ v ∈ h, v.std = p ∧ v.loc = l := by
  unfold stdOf at hs
  rw [Option.map_eq_some_iff] at hs
  obtain ⟨v, hv, rfl⟩ := hs
  exact ⟨v, by simpa using List.mem_of_find?_eq_some hv, rfl, by simpa using List.find?_some hv⟩

theorem findParent_some {h : List HVar} {x p : Str} (hf : findParent h x = some p) : Registered h x p := by
  unfold findParent at hf
  obtain ⟨i, hi, hs⟩ := List.exists_of_findSome?_eq_some hf
  obtain ⟨v, hv, hp, hl⟩ := stdOf_some hs
  exact ⟨v, hv, hp, (whole_iff _ _).2 ⟨i, by have := List.mem_range.1 hi; omega, hl⟩⟩

/-- A parent has one name -/
theorem findParent_inj {h : List HVar} (hu : (h.map (·.std)).Nodup) {x y p : Str} (hx : IsName x) (hy : IsName y)
    (h1 : findParent h x = some p) (h2 : findParent h y = some p) : x = y := by
  obtain ⟨v, hv, hvp, hvx⟩ := findParent_some h1
  obtain ⟨w, hw, hwp, hwy⟩ := findParent_some h2
  have : v = w := by
    have a := find_of_mem hu hv
    have b := find_of_mem hu hw
    rw [hvp] at a; rw [hwp] at b
    exact Option.some.inj (a.symm.trans b)
  subst this
  rw [← whole_name hx hvx, ← whole_name hy hwy]

/-! ## The dictionary of parents -/

theorem mem_setParent {p n : Str} {f : Option Intent → Intent} : ∀ {l : List Parent}, (l.map (·.std)).Nodup → ∀ e', e' ∈ setParent p n f l ↔
    (e'.std ≠ p ∧ e' ∈ l) ∨ (∃ e ∈ l, e.std = p ∧ e' = { e with intent := f (some e.intent) }) ∨ ((∀ e ∈ l, e.std ≠ p) ∧ e' = ⟨p, n, f none⟩)
  | [], _, e' => by simp [setParent]
  | a :: l, hu, e' => by
    simp only [List.map_cons, List.nodup_cons] at hu
    rw [setParent]
    split
    · rename_i ha
      have hl : ∀ e ∈ l, e.std ≠ p := fun e he hp => hu.1 (by rw [ha, ← hp]; exact List.mem_map_of_mem he)
      constructor
      · intro h
        rcases List.mem_cons.1 h with rfl | h
        · exact Or.inr (Or.inl ⟨a, by simp, ha, rfl⟩)
        · exact Or.inl ⟨hl _ h, List.mem_cons_of_mem _ h⟩
      · rintro (⟨h1, h2⟩ | ⟨e, h1, h2, rfl⟩ | ⟨h1, _⟩)
        · rcases List.mem_cons.1 h2 with rfl | h2
          · exact absurd ha h1
          · exact List.mem_cons_of_mem _ h2
        · rcases List.mem_cons.1 h1 with rfl | h1
          · simp
          · exact absurd h2 (hl e h1)
        · exact absurd ha (h1 a (by simp))
    · rename_i ha
      rw [List.mem_cons, mem_setParent hu.2 e']
      constructor
      · rintro (rfl | ⟨h1, h2⟩ | ⟨e, h1, h2, rfl⟩ | ⟨h1, h2⟩)
        · exact Or.inl ⟨ha, by simp⟩
        · exact Or.inl ⟨h1, List.mem_cons_of_mem _ h2⟩
        · exact Or.inr (Or.inl ⟨e, List.mem_cons_of_mem _ h1, h2, rfl⟩)
        · refine Or.inr (Or.inr ⟨?_, h2⟩)
          intro e he
          rcases List.mem_cons.1 he with rfl | he
          · exact ha
          · exact h1 e he
      · rintro (⟨h1, h2⟩ | ⟨e, h1, h2, rfl⟩ | ⟨h1, h2⟩)
        · rcases List.mem_cons.1 h2 with rfl | h2
          · exact Or.inl rfl
          · exact Or.inr (Or.inl ⟨h1, h2⟩)
        · rcases List.mem_cons.1 h1 with rfl | h1
          · exact absurd h2 ha
          · exact Or.inr (Or.inr (Or.inl ⟨e, h1, h2, rfl⟩))
        · exact Or.inr (Or.inr (Or.inr ⟨fun e he => h1 e (List.mem_cons_of_mem _ he), h2⟩))

theorem setParent_keys {p n : Str} {f : Option Intent → Intent} : ∀ (l : List Parent),
    (setParent p n f l).map (·.std) = if p ∈ l.map (·.std) then l.map (·.std) else l.map (·.std) ++ [p]
  | [] => by simp [setParent]
  | a :: l => by
    rw [setParent]
    split
    · rename_i ha; simp [ha]
    · rename_i ha
      have ha' : p ≠ a.std := fun e => ha e.symm
      simp only [List.map_cons, setParent_keys l, List.mem_cons, ha', false_or]
      split <;> simp

theorem setParent_nodup {p n : Str} {f : Option Intent → Intent} {l : List Parent} (h : (l.map (·.std)).Nodup) :
    ((setParent p n f l).map (·.std)).Nodup := by
  rw [setParent_keys]
  split
  · exact h
  · rename_i hp
    rw [List.nodup_append]
    refine ⟨h, by simp, ?_⟩
    intro a ha b hb
    rw [List.mem_singleton.1 hb]
    rintro rfl
    exact hp ha

/-- The entries stay, the intents become wider -/
def Le (l l' : List Parent) : Prop := ∀ e ∈ l, ∃ e' ∈ l', e'.std = e.std ∧ e'.loc = e.loc ∧ Up e.intent e'.intent

theorem Le.refl (l : List Parent) : Le l l := fun e he => ⟨e, he, rfl, rfl, Up.refl _⟩
theorem Le.trans {a b c : List Parent} (h1 : Le a b) (h2 : Le b c) : Le a c := by
  intro e he
  obtain ⟨e1, h1m, s1, l1, u1⟩ := h1 e he
  obtain ⟨e2, h2m, s2, l2, u2⟩ := h2 e1 h1m
  exact ⟨e2, h2m, s2.trans s1, l2.trans l1, u1.trans u2⟩

theorem setParent_le {p n : Str} {f : Option Intent → Intent} {l : List Parent} (hu : (l.map (·.std)).Nodup) (hf : ∀ o, Up o (f (some o))) :
    Le l (setParent p n f l) := by
  intro e he
  by_cases hp : e.std = p
  · exact ⟨{ e with intent := f (some e.intent) }, (mem_setParent hu _).2 (Or.inr (Or.inl ⟨e, he, hp, rfl⟩)), rfl, rfl, hf _⟩
  · exact ⟨e, (mem_setParent hu _).2 (Or.inl ⟨hp, he⟩), rfl, rfl, Up.refl _⟩

/-- An entry of the new dictionary comes from one of the old or is the new one -/
theorem setParent_old {p n : Str} {f : Option Intent → Intent} {l : List Parent} (hu : (l.map (·.std)).Nodup) (hf : ∀ o, Up o (f (some o)))
    {e' : Parent} (he : e' ∈ setParent p n f l) :
    (∃ e ∈ l, e'.std = e.std ∧ e'.loc = e.loc ∧ Up e.intent e'.intent ∧ (e'.intent = e.intent ∨ e.std = p ∧ e'.intent = f (some e.intent))) ∨
    ((∀ e ∈ l, e.std ≠ p) ∧ e' = ⟨p, n, f none⟩) := by
  rcases (mem_setParent hu _).1 he with ⟨h1, h2⟩ | ⟨e, h1, h2, rfl⟩ | h
  · exact Or.inl ⟨e', h2, rfl, rfl, Up.refl _, Or.inl rfl⟩
  · exact Or.inl ⟨e, h1, rfl, rfl, hf _, Or.inr ⟨h2, rfl⟩⟩
  · exact Or.inr h

/-! ## What is true of the collection -/

/-- The calls that have been seen have an argument that is written and has this root -/
def Written (h : List HVar) (seen : List (List (Str × Intent))) (x : Str) : Prop :=
  ∃ c ∈ seen, ∃ v i, (v, i) ∈ c ∧ i ≠ .in ∧ ∃ hv, find h v = some hv ∧ Root hv.loc x

/-- What is known of a variable in `local_vars` -/
def Rec (h : List HVar) (seen : List (List (Str × Intent))) (ps : List Parent) (v p : Str) : Prop :=
  ∃ hv, find h v = some hv ∧ (∃ x, Root hv.loc x ∧ findParent h x = some p ∧
      ∃ e ∈ ps, e.std = p ∧ e.loc = x ∧ (e.intent = .out → ∃ c ∈ seen, (v, Intent.out) ∈ c)) ∧
    ∀ y, IndexRoot hv.loc y → ∃ e ∈ ps, e.loc = y ∧ e.intent ≠ .out

/-- The invariant, for a part of `local_vars` -/
structure InvA (h : List HVar) (seen : List (List (Str × Intent))) (L : List (Str × Str)) (ps : List Parent) : Prop where
  keys : (ps.map (·.std)).Nodup
  names : ∀ e ∈ ps, IsName e.loc ∧ findParent h e.loc = some e.std
  recs : ∀ v p, (v, p) ∈ L → Rec h seen ps v p
  twice : ∀ v w p, (v, p) ∈ L → (w, p) ∈ L → v ≠ w → ∀ e ∈ ps, e.std = p → e.intent ≠ .out
  writes : ∀ e ∈ ps, e.intent ≠ .in → Written h seen e.loc

theorem entry_unique {ps : List Parent} (hu : (ps.map (·.std)).Nodup) {e e' : Parent} (h1 : e ∈ ps) (h2 : e' ∈ ps) (h : e.std = e'.std) : e = e' := by
  induction ps with
  | nil => cases h1
  | cons a l ih =>
    simp only [List.map_cons, List.nodup_cons] at hu
    rcases List.mem_cons.1 h1 with a1 | a1
    · rcases List.mem_cons.1 h2 with a2 | a2
      · rw [a1, a2]
      · exact absurd (by rw [← a1, h]; exact List.mem_map_of_mem a2) hu.1
    · rcases List.mem_cons.1 h2 with a2 | a2
      · exact absurd (by rw [← a2, ← h]; exact List.mem_map_of_mem a1) hu.1
      · exact ih hu.2 a1 a2

/-- What stays true when the dictionary changes -/
theorem Rec.mono {h : List HVar} {seen : List (List (Str × Intent))} {ps ps' : List Parent} {v p : Str} (hr : Rec h seen ps v p) (hl : Le ps ps') :
    Rec h seen ps' v p := by
  obtain ⟨hv, hf, ⟨x, hx, hp, e, he, hs, hloc, ho⟩, hi⟩ := hr
  refine ⟨hv, hf, ⟨x, hx, hp, ?_⟩, ?_⟩
  · obtain ⟨e', he', s', l', u'⟩ := hl e he
    exact ⟨e', he', s'.trans hs, l'.trans hloc, fun hout => ho (u'.out hout)⟩
  · intro y hy
    obtain ⟨e, he, hloc, hno⟩ := hi y hy
    obtain ⟨e', he', s', l', u'⟩ := hl e he
    exact ⟨e', he', l'.trans hloc, fun hout => hno (u'.out hout)⟩

theorem Rec.seen {h : List HVar} {seen seen' : List (List (Str × Intent))} {ps : List Parent} {v p : Str} (hr : Rec h seen ps v p)
    (hs : ∀ c ∈ seen, c ∈ seen') : Rec h seen' ps v p := by
  obtain ⟨hv, hf, ⟨x, hx, hp, e, he, hst, hloc, ho⟩, hi⟩ := hr
  refine ⟨hv, hf, ⟨x, hx, hp, e, he, hst, hloc, fun hout => ?_⟩, hi⟩
  obtain ⟨c, hc, hm⟩ := ho hout
  exact ⟨c, hs c hc, hm⟩

theorem InvA.seen {h : List HVar} {seen seen' : List (List (Str × Intent))} {L : List (Str × Str)} {ps : List Parent} (hi : InvA h seen L ps)
    (hs : ∀ c ∈ seen, c ∈ seen') : InvA h seen' L ps := by
  refine ⟨hi.keys, hi.names, fun v p hm => (hi.recs v p hm).seen hs, hi.twice, fun e he hne => ?_⟩
  obtain ⟨c, hc, r⟩ := hi.writes e he hne
  exact ⟨c, hs c hc, r⟩

/-- A change of the dictionary -/
theorem InvA.set {h : List HVar} {seen : List (List (Str × Intent))} {L : List (Str × Str)} {ps : List Parent} (hi : InvA h seen L ps)
    {p n : Str} {f : Option Intent → Intent} (hf : ∀ o, Up o (f (some o))) (hp : findParent h n = some p) (hn : IsName n)
    (hw : ∀ o, f o ≠ .in → (∃ k, o = some k ∧ k ≠ .in) ∨ Written h seen n) (hu : (h.map (·.std)).Nodup) :
    InvA h seen L (setParent p n f ps) ∧ Le ps (setParent p n f ps) := by
  have hle := setParent_le (p := p) (n := n) hi.keys hf
  refine ⟨⟨setParent_nodup hi.keys, ?_, fun v q hm => (hi.recs v q hm).mono hle, ?_, ?_⟩, hle⟩
  · intro e' he'
    rcases setParent_old hi.keys hf he' with ⟨e, he, s, l, _, _⟩ | ⟨_, rfl⟩
    · rw [l, s]; exact hi.names e he
    · exact ⟨hn, hp⟩
  · intro v w q hv hw' hne e' he' hs
    rcases setParent_old hi.keys hf he' with ⟨e, he, s, l, u, _⟩ | ⟨hno, rfl⟩
    · intro hout
      exact hi.twice v w q hv hw' hne e he (s.symm.trans hs) (u.out hout)
    · obtain ⟨_, _, ⟨_, _, _, e, he, hes, _⟩, _⟩ := hi.recs v q hv
      exact absurd (hes.trans hs.symm) (hno e he)
  · intro e' he' hne
    rcases setParent_old hi.keys hf he' with ⟨e, he, s, l, u, hint⟩ | ⟨hno, rfl⟩
    · rw [l]
      rcases hint with hint | ⟨hep, hint⟩
      · exact hi.writes e he (hint ▸ hne)
      · rw [hint] at hne
        rcases hw _ hne with ⟨k, hk, hk'⟩ | hw
        · cases hk; exact hi.writes e he hk'
        · have hnm := hi.names e he
          rw [hep] at hnm
          rw [findParent_inj hu hnm.1 hn hnm.2 hp]
          exact hw
    · rcases hw none hne with ⟨k, hk, _⟩ | hw
      · cases hk
      · exact hw

/-- The entry after a change -/
theorem setParent_entry {h : List HVar} {seen : List (List (Str × Intent))} {L : List (Str × Str)} {ps : List Parent} (hi : InvA h seen L ps)
    (hu : (h.map (·.std)).Nodup) {p n : Str} (f : Option Intent → Intent) (hp : findParent h n = some p) (hn : IsName n) :
    (∃ e ∈ ps, e.std = p ∧ e.loc = n ∧ (⟨p, n, f (some e.intent)⟩ : Parent) ∈ setParent p n f ps) ∨
    ((∀ e ∈ ps, e.std ≠ p) ∧ (⟨p, n, f none⟩ : Parent) ∈ setParent p n f ps) := by
  by_cases hex : ∃ e ∈ ps, e.std = p
  · obtain ⟨e, he, hep⟩ := hex
    have hnm := hi.names e he
    rw [hep] at hnm
    have hloc : e.loc = n := findParent_inj hu hnm.1 hn hnm.2 hp
    refine Or.inl ⟨e, he, hep, hloc, (mem_setParent hi.keys _).2 (Or.inr (Or.inl ⟨e, he, hep, ?_⟩))⟩
    rw [← hep, ← hloc]
  · exact Or.inr ⟨fun e he hep => hex ⟨e, he, hep⟩, (mem_setParent hi.keys _).2 (Or.inr (Or.inr ⟨fun e he hep => hex ⟨e, he, hep⟩, rfl⟩))⟩

/-! ## Additions -/

theorem require_eq {h : List HVar} {args : List Str} {st st' : St} {n : Str} (hr : require h args st n = some st') :
    st'.locals = st.locals ∧ st'.parents = st.parents ∧ (∀ d ∈ st.add, d ∈ st'.add) ∧ (∀ d ∈ st'.add, d ∈ st.add ∨ d = n) ∧ known args st' n = true := by
  unfold require at hr
  split at hr
  · rename_i hk
    cases hr
    exact ⟨rfl, rfl, fun _ h => h, fun _ h => Or.inl h, hk⟩
  · rw [Option.map_eq_some_iff] at hr
    obtain ⟨_, _, rfl⟩ := hr
    refine ⟨rfl, rfl, fun d hd => List.mem_append_left _ hd, fun d hd => ?_, by simp [known]⟩
    rcases List.mem_append.1 hd with hd | hd
    · exact Or.inl hd
    · exact Or.inr (List.mem_singleton.1 hd)

theorem request_eq (args : List Str) (st : St) (n : Str) :
    (request args st n).locals = st.locals ∧ (request args st n).parents = st.parents ∧ (∀ d ∈ st.add, d ∈ (request args st n).add) ∧
    known args (request args st n) n = true := by
  unfold request
  split
  · rename_i hk; exact ⟨rfl, rfl, fun _ h => h, hk⟩
  · exact ⟨rfl, rfl, fun d hd => List.mem_append_left _ hd, by simp [known]⟩

theorem known_mono {args : List Str} {st st' : St} (h1 : ∀ d ∈ st.locals.map (·.1), d ∈ st'.locals.map (·.1)) (h2 : ∀ d ∈ st.add, d ∈ st'.add) {n : Str}
    (hk : known args st n = true) : known args st' n = true := by
  unfold known at hk ⊢
  simp only [Bool.or_eq_true, List.contains_iff_mem] at hk ⊢
  rcases hk with (hk | hk) | hk
  · exact Or.inl (Or.inl (h1 n hk))
  · exact Or.inl (Or.inr (h2 n hk))
  · exact Or.inr hk

theorem known_iff (args : List Str) (st : St) (n : Str) : known args st n = true ↔ n ∈ st.locals.map (·.1) ∨ n ∈ st.add ∨ n ∈ args := by
  unfold known
  simp only [Bool.or_eq_true, List.contains_iff_mem, or_assoc]

theorem requires_eq {h : List HVar} {args : List Str} : ∀ (l : List Str) {st st' : St}, l.foldlM (require h args) st = some st' →
    st'.locals = st.locals ∧ st'.parents = st.parents ∧ (∀ d ∈ st.add, d ∈ st'.add) ∧ (∀ d ∈ st'.add, d ∈ st.add ∨ d ∈ l) ∧ ∀ d ∈ l, known args st' d = true
  | [], st, st', hr => by cases hr; exact ⟨rfl, rfl, fun _ h => h, fun _ h => Or.inl h, fun _ h => nomatch h⟩
  | n :: l, st, st', hr => by
    rw [List.foldlM_cons] at hr
    obtain ⟨s1, h1, h2⟩ := Option.bind_eq_some_iff.1 hr
    obtain ⟨a1, b1, c1, d1, e1⟩ := require_eq h1
    obtain ⟨a2, b2, c2, d2, e2⟩ := requires_eq l h2
    refine ⟨a2.trans a1, b2.trans b1, fun d hd => c2 d (c1 d hd), fun d hd => ?_, fun d hd => ?_⟩
    · rcases d2 d hd with hd | hd
      · rcases d1 d hd with hd | rfl
        · exact Or.inl hd
        · exact Or.inr (by simp)
      · exact Or.inr (List.mem_cons_of_mem _ hd)
    · rcases List.mem_cons.1 hd with rfl | hd
      · exact known_mono (by rw [a2]; exact fun _ h => h) c2 e1
      · exact e2 d hd

/-- States that differ in the additions only -/
def Adds (st st' : St) : Prop := st'.locals = st.locals ∧ st'.parents = st.parents ∧ ∀ d ∈ st.add, d ∈ st'.add

theorem Adds.trans {a b c : St} (h1 : Adds a b) (h2 : Adds b c) : Adds a c :=
  ⟨h2.1.trans h1.1, h2.2.1.trans h1.2.1, fun d hd => h2.2.2 d (h1.2.2 d hd)⟩

theorem Adds.known {args : List Str} {a b : St} (h : Adds a b) {n : Str} (hk : known args a n = true) : PA.known args b n = true :=
  known_mono (by rw [h.1]; exact fun _ h => h) h.2.2 hk

theorem requests_eq (args : List Str) : ∀ (l : List Str) (st : St), Adds st (l.foldl (request args) st) ∧ ∀ d ∈ l, known args (l.foldl (request args) st) d = true
  | [], st => ⟨⟨rfl, rfl, fun _ h => h⟩, fun _ h => nomatch h⟩
  | n :: l, st => by
    obtain ⟨a, b, c, d⟩ := request_eq args st n
    obtain ⟨ih1, ih2⟩ := requests_eq args l (request args st n)
    refine ⟨Adds.trans ⟨a, b, c⟩ ih1, fun x hx => ?_⟩
    rcases List.mem_cons.1 hx with rfl | hx
    · exact ih1.known d
    · exact ih2 x hx

theorem requireConds_eq {h : List HVar} {args : List Str} : ∀ (l : List Str) {st st' : St}, l.foldlM (requireCond h args) st = some st' →
    Adds st st' ∧ ∀ d ∈ l, known args st' d = true
  | [], st, st', hr => by cases hr; exact ⟨⟨rfl, rfl, fun _ h => h⟩, fun _ h => nomatch h⟩
  | n :: l, st, st', hr => by
    rw [List.foldlM_cons] at hr
    obtain ⟨s1, h1, h2⟩ := Option.bind_eq_some_iff.1 hr
    unfold requireCond at h1
    rw [Option.map_eq_some_iff] at h1
    obtain ⟨_, _, rfl⟩ := h1
    obtain ⟨a, b, c, d⟩ := request_eq args st n
    obtain ⟨ih1, ih2⟩ := requireConds_eq l h2
    refine ⟨Adds.trans ⟨a, b, c⟩ ih1, fun x hx => ?_⟩
    rcases List.mem_cons.1 hx with rfl | hx
    · exact ih1.known d
    · exact ih2 x hx

/-! ## One variable -/

theorem mem_setLocal {v p : Str} : ∀ {l : List (Str × Str)} {x : Str × Str}, x ∈ setLocal v p l → x ∈ l ∨ x = (v, p)
  | [], x, h => Or.inr (List.mem_singleton.1 h)
  | a :: l, x, h => by
    rw [setLocal] at h
    split at h
    · rcases List.mem_cons.1 h with h | h
      · exact Or.inr h
      · exact Or.inl (List.mem_cons_of_mem _ h)
    · rcases List.mem_cons.1 h with h | h
      · exact Or.inl (by simp [h])
      · rcases mem_setLocal h with h | h
        · exact Or.inl (List.mem_cons_of_mem _ h)
        · exact Or.inr h

theorem setLocal_keys {v p : Str} : ∀ {l : List (Str × Str)}, (∀ d ∈ l.map (·.1), d ∈ (setLocal v p l).map (·.1)) ∧ v ∈ (setLocal v p l).map (·.1)
  | [] => by simp [setLocal]
  | a :: l => by
    rw [setLocal]
    have ih := setLocal_keys (v := v) (p := p) (l := l)
    split
    · rename_i ha
      refine ⟨fun d hd => ?_, by simp⟩
      simpa [ha] using hd
    · refine ⟨fun d hd => ?_, List.mem_cons_of_mem _ ih.2⟩
      rw [List.map_cons] at hd ⊢
      rcases List.mem_cons.1 hd with rfl | hd
      · simp
      · exact List.mem_cons_of_mem _ (ih.1 d hd)

/-- The dimensions of variables of the host -/
def AnyDim (h : List HVar) (d : Str) : Prop := ∃ w ∈ h, d ∈ dimNames w.dims

/-- The dimensions of a parent are known -/
def DimsKnown (h : List HVar) (args : List Str) (st : St) (p : Str) : Prop := ∀ pv, find h p = some pv → ∀ d ∈ dimNames pv.dims, known args st d = true

/-- The state grows -/
structure Grows (h : List HVar) (st st' : St) : Prop where
  le : Le st.parents st'.parents
  keys : ∀ d ∈ st.locals.map (·.1), d ∈ st'.locals.map (·.1)
  add : ∀ d ∈ st.add, d ∈ st'.add
  new : ∀ d ∈ st'.add, d ∈ st.add ∨ AnyDim h d

theorem Grows.refl (h : List HVar) (st : St) : Grows h st st := ⟨Le.refl _, fun _ h => h, fun _ h => h, fun _ h => Or.inl h⟩
theorem Grows.trans {h : List HVar} {a b c : St} (h1 : Grows h a b) (h2 : Grows h b c) : Grows h a c :=
  ⟨h1.le.trans h2.le, fun d hd => h2.keys d (h1.keys d hd), fun d hd => h2.add d (h1.add d hd), fun d hd => by
    rcases h2.new d hd with hd | hd
    · exact h1.new d hd
    · exact Or.inr hd⟩
theorem Grows.known {h : List HVar} {args : List Str} {a b : St} (hg : Grows h a b) {n : Str} (hk : known args a n = true) : PA.known args b n = true :=
  known_mono hg.keys hg.add hk

theorem place_ok {h : List HVar} (hu : (h.map (·.std)).Nodup) {seen : List (List (Str × Intent))} {L : List (Str × Str)} {args : List Str} {v root : Str} {i : Intent}
    {st st' : St} {n : Str} (hi : InvA h seen L st.parents) (hn : IsName n) (hw : n = root → i ≠ .in → Written h seen n)
    (hp : place h args v root i st n = some st') : ∃ p, findParent h n = some p ∧ st'.parents = setParent p n (rule1 (n == root) i) st.parents ∧
      st'.locals = (if n = root then setLocal v p st.locals else st.locals) ∧ InvA h seen L st'.parents ∧ Grows h st st' ∧ DimsKnown h args st' p := by
  unfold place at hp
  obtain ⟨p, hfp, hp⟩ := Option.bind_eq_some_iff.1 hp
  obtain ⟨pv, hpv, hp⟩ := Option.bind_eq_some_iff.1 hp
  obtain ⟨s1, hs1, rfl⟩ := Option.map_eq_some_iff.1 hp
  obtain ⟨a, b, c, d, e⟩ := requires_eq _ hs1
  obtain ⟨i1, i2⟩ := hi.set (p := p) (n := n) (f := rule1 (n == root) i) (fun o => rule1_up _ _ o) hfp hn (fun o ho => by
    rcases rule1_in ho with ho | ⟨ho, hne⟩
    · exact Or.inl ho
    · exact Or.inr (hw (by simpa using ho) hne)) hu
  have hloc : ∀ x ∈ st.locals.map (·.1), x ∈ (if n = root then setLocal v p s1.locals else s1.locals).map (·.1) := by
    intro x hx
    rw [a]
    split
    · exact setLocal_keys.1 x hx
    · exact hx
  refine ⟨p, hfp, by rw [b], by rw [a], by rw [b]; exact i1, ⟨by rw [b]; exact i2, hloc, c, ?_⟩, ?_⟩
  · intro x hx
    rcases d x hx with hx | hx
    · exact Or.inl hx
    · exact Or.inr ⟨pv, (find_mem hpv).1, hx⟩
  · intro pv' hpv' x hx
    rw [hpv] at hpv'
    cases hpv'
    exact known_mono (st := s1) (st' := ⟨if n = root then setLocal v p s1.locals else s1.locals, _, s1.add⟩) (fun y hy => hloc y (by rw [← a]; exact hy)) (fun _ h => h) (e x hx)

/-- The indices of a variable -/
theorem places_ok {h : List HVar} (hu : (h.map (·.std)).Nodup) {seen : List (List (Str × Intent))} {L : List (Str × Str)} {args : List Str} {v root pr : Str} {i : Intent}
    (hw : i ≠ .in → Written h seen root) (hpr : findParent h root = some pr) : ∀ (l : List Str) {st st' : St}, InvA h seen L st.parents →
    (∀ n ∈ l, IsName n) → (∃ e ∈ st.parents, e.std = pr) → l.foldlM (place h args v root i) st = some st' →
      InvA h seen L st'.parents ∧ Grows h st st' ∧ (∀ x ∈ st'.locals, x ∈ st.locals ∨ x = (v, pr)) ∧
      (∀ n ∈ l, ∃ e ∈ st'.parents, e.loc = n ∧ e.intent ≠ .out) ∧
      (∀ e' ∈ st'.parents, (∃ e ∈ st.parents, e.std = e'.std) ∨ (e'.loc ∈ l ∧ DimsKnown h args st' e'.std))
  | [], st, st', hi, _, _, hf => by
    cases hf
    exact ⟨hi, Grows.refl h _, fun _ h => Or.inl h, (fun _ h => nomatch h), fun e he => Or.inl ⟨e, he, rfl⟩⟩
  | n :: l, st, st', hi, hn, hex, hf => by
    rw [List.foldlM_cons] at hf
    obtain ⟨s1, h1, h2⟩ := Option.bind_eq_some_iff.1 hf
    have hnn := hn n (by simp)
    obtain ⟨p, hp, hps, hls, hi1, hg, hd⟩ := place_ok hu hi hnn (fun e hne => e ▸ hw hne) h1
    have hex1 : ∃ e ∈ s1.parents, e.std = pr := by
      obtain ⟨e, he, hs⟩ := hex
      obtain ⟨e', he', s', _⟩ := hg.le e he
      exact ⟨e', he', s'.trans hs⟩
    obtain ⟨j1, j2, j3, j4, j5⟩ := places_ok hu hw hpr l hi1 (fun x hx => hn x (List.mem_cons_of_mem _ hx)) hex1 h2
    refine ⟨j1, hg.trans j2, ?_, ?_, ?_⟩
    · intro x hx
      rcases j3 x hx with hx | hx
      · rw [hls] at hx
        split at hx
        · rename_i hr
          subst hr
          rw [hpr] at hp
          cases hp
          exact mem_setLocal hx
        · exact Or.inl hx
      · exact Or.inr hx
    · intro x hx
      rcases List.mem_cons.1 hx with rfl | hx
      · have hent : ∃ e ∈ s1.parents, e.loc = x ∧ e.intent ≠ .out := by
          rw [hps]
          rcases setParent_entry hi hu (rule1 (x == root) i) hp hnn with ⟨e, he, _, _, hm⟩ | ⟨hno, hm⟩
          · exact ⟨_, hm, rfl, rule1_again _ _ _⟩
          · refine ⟨_, hm, rfl, ?_⟩
            by_cases hr : x = root
            · subst hr
              rw [hpr] at hp
              cases hp
              obtain ⟨e, he, hs⟩ := hex
              exact absurd hs (hno e he)
            · have : (x == root) = false := by simpa using hr
              rw [this]
              exact rule1_index i none
        obtain ⟨e, he, hl, ho⟩ := hent
        obtain ⟨e', he', _, l', u'⟩ := j2.le e he
        exact ⟨e', he', l'.trans hl, fun h => ho (u'.out h)⟩
      · exact j4 x hx
    · intro e' he'
      rcases j5 e' he' with ⟨e, he, hs⟩ | ⟨hl, hk⟩
      · rw [hps] at he
        rcases setParent_old hi.keys (fun o => rule1_up _ _ o) he with ⟨e0, he0, s0, _⟩ | ⟨_, rfl⟩
        · exact Or.inl ⟨e0, he0, s0.symm.trans hs⟩
        · right
          have hs : p = e'.std := hs
          have hnm := j1.names e' he'
          rw [← hs] at hnm
          have : e'.loc = n := findParent_inj hu hnm.1 hnn hnm.2 hp
          refine ⟨by simp [this], ?_⟩
          rw [← hs]
          intro pv hpv d hdm
          exact j2.known (hd pv hpv d hdm)
      · exact Or.inr ⟨List.mem_cons_of_mem _ hl, hk⟩

theorem lookup_mem {α : Type} {l : List (Str × α)} {v : Str} {a : α} (h : l.lookup v = some a) : (v, a) ∈ l := by
  induction l with
  | nil => cases h
  | cons x l ih =>
    rw [List.lookup_cons] at h
    by_cases hv : v = x.1
    · subst hv
      simp only [beq_self_eq_true, Option.some.injEq] at h
      subst h
      simp
    · have hb : (v == x.1) = false := by simpa using hv
      rw [hb] at h
      exact List.mem_cons_of_mem _ (ih h)

theorem lookup_none {α : Type} {l : List (Str × α)} {v : Str} (h : l.lookup v = none) : v ∉ l.map (·.1) := by
  induction l with
  | nil => simp
  | cons x l ih =>
    rw [List.lookup_cons] at h
    by_cases hv : v = x.1
    · subst hv; simp at h
    · have hb : (v == x.1) = false := by simpa using hv
      rw [hb] at h
      rw [List.map_cons, List.mem_cons, not_or]
      exact ⟨hv, ih h⟩

theorem lookup_of_mem {α : Type} {l : List (Str × α)} (hu : (l.map (·.1)).Nodup) {v : Str} {a : α} (h : (v, a) ∈ l) : l.lookup v = some a := by
  induction l with
  | nil => cases h
  | cons x l ih =>
    simp only [List.map_cons, List.nodup_cons] at hu
    rw [List.lookup_cons]
    rcases List.mem_cons.1 h with rfl | h
    · simp
    · have : v ≠ x.1 := by
        rintro rfl
        exact hu.1 (List.mem_map.2 ⟨_, h, rfl⟩)
      have hb : (v == x.1) = false := by simpa using this
      rw [hb]
      exact ih hu.2 h

/-- The intent with which a call uses a variable -/
def useOf (args : List (Str × Intent)) (v : Str) : Intent := (args.lookup v).getD .in

theorem useOf_mem {args : List (Str × Intent)} {v : Str} (h : useOf args v ≠ .in) : (v, useOf args v) ∈ args := by
  unfold useOf at h ⊢
  cases hl : args.lookup v with
  | none => rw [hl] at h; exact absurd rfl h
  | some i => exact lookup_mem hl

/-- What a visit does -/
structure Visited (h : List HVar) (seen : List (List (Str × Intent))) (args : List (Str × Intent)) (st st' : St) (v : Str) : Prop where
  inv : InvA h seen st'.locals st'.parents
  grows : Grows h st st'
  key : v ∈ st'.locals.map (·.1)
  covers : ∃ hv, find h v = some hv ∧ ∃ x, Root hv.loc x ∧ ∃ e ∈ st'.parents, e.loc = x ∧ Covers e.intent (useOf args v)
  dims : ∀ e' ∈ st'.parents, (∃ e ∈ st.parents, e.std = e'.std) ∨
    (v ∉ st.locals.map (·.1) ∧ (∃ hv, find h v = some hv ∧ (Root hv.loc e'.loc ∨ IndexRoot hv.loc e'.loc)) ∧ DimsKnown h (args.map (·.1)) st' e'.std)

theorem visit_ok {h : List HVar} (ho : HostOk h) {seen : List (List (Str × Intent))} {args : List (Str × Intent)} (hs : args ∈ seen) {st st' : St} {v : Str}
    (hi : InvA h seen st.locals st.parents) (hv : visit h args st v = some st') : Visited h seen args st st' v := by
  unfold visit at hv
  obtain ⟨hvar, hf, hv⟩ := Option.bind_eq_some_iff.1 hv
  have hwr : ∀ x, Root hvar.loc x → useOf args v ≠ .in → Written h seen x := fun x hx hne =>
    ⟨args, hs, v, _, useOf_mem hne, hne, hvar, hf, hx⟩
  cases hl : st.locals.lookup v with
  | some p =>
    rw [hl] at hv
    simp only [Option.some.injEq] at hv
    subst hv
    have hm := lookup_mem hl
    obtain ⟨hv', hf', ⟨x, hx, hp, e, he, hes, hel, hout⟩, hidx⟩ := hi.recs v p hm
    rw [hf] at hf'
    cases hf'
    have hset : setParent p hvar.loc (fun o => rule2 (useOf args v) (o.getD .in)) st.parents = setParent p x (fun o => rule2 (useOf args v) (o.getD .in)) st.parents := by
      have : ∀ (l : List Parent) a b, (∃ e ∈ l, e.std = p) → setParent p a (fun o => rule2 (useOf args v) (o.getD .in)) l = setParent p b (fun o => rule2 (useOf args v) (o.getD .in)) l := by
        intro l a b
        induction l with
        | nil => rintro ⟨_, h, _⟩; cases h
        | cons e l ih =>
          rintro ⟨e', h1, h2⟩
          simp only [setParent]
          split
          · rfl
          · rename_i hne
            rcases List.mem_cons.1 h1 with rfl | h1
            · exact absurd h2 hne
            · rw [ih ⟨e', h1, h2⟩]
      exact this _ _ _ ⟨e, he, hes⟩
    show Visited h seen args st { st with parents := setParent p hvar.loc (fun o => rule2 (useOf args v) (o.getD .in)) st.parents } v
    rw [hset]
    obtain ⟨i1, i2⟩ := hi.set (p := p) (n := x) (f := fun o => rule2 (useOf args v) (o.getD .in)) (fun o => rule2_up _ o) hp hx.1 (fun o ho => by
      rcases rule2_in ho with ho | hne
      · cases o with
        | none => exact absurd rfl ho
        | some k => exact Or.inl ⟨k, rfl, ho⟩
      · exact Or.inr (hwr x hx hne)) ho.unique
    refine ⟨i1, ⟨i2, fun _ h => h, fun _ h => h, fun _ h => Or.inl h⟩, List.mem_map_of_mem (f := fun x : Str × Str => x.1) hm, ⟨hvar, hf, x, hx, ?_⟩, ?_⟩
    · rcases setParent_entry hi ho.unique (fun o => rule2 (useOf args v) (o.getD .in)) hp hx.1 with ⟨e', _, _, _, hme⟩ | ⟨hno, _⟩
      · exact ⟨_, hme, rfl, rule2_covers _ _⟩
      · exact absurd hes (hno e he)
    · intro e' he'
      rcases setParent_old hi.keys (fun o => rule2_up _ o) he' with ⟨e0, he0, s0, _⟩ | ⟨hno, _⟩
      · exact Or.inl ⟨e0, he0, s0.symm⟩
      · exact absurd hes (hno e he)
  | none =>
    rw [hl] at hv
    have hnk := lookup_none hl
    obtain ⟨root, is, hext, hroot, his, _⟩ := C74_names (ho.refs hvar (find_mem hf).1)
    simp only [hext, Option.bind_some] at hv
    rw [List.foldlM_cons] at hv
    obtain ⟨s1, h1, h2⟩ := Option.bind_eq_some_iff.1 hv
    have h1 : place h (args.map (·.1)) v root (useOf args v) st root = some s1 := h1
    obtain ⟨p, hp, hps, hls, hi1, hg, hd⟩ := place_ok ho.unique hi hroot.1 (fun _ hne => hwr root hroot hne) h1
    rw [if_pos rfl] at hls
    have hb : (root == root) = true := by simp
    rw [hb] at hps
    have hent := setParent_entry hi ho.unique (rule1 true (useOf args v)) hp hroot.1
    rw [← hps] at hent
    have hex : ∃ e ∈ s1.parents, e.std = p := by
      rcases hent with ⟨e, _, _, _, hm⟩ | ⟨_, hm⟩
      · exact ⟨_, hm, rfl⟩
      · exact ⟨_, hm, rfl⟩
    obtain ⟨j1, j2, j3, j4, j5⟩ := places_ok ho.unique (fun hne => hwr root hroot hne) hp is hi1 (fun n hn => ((his n).1 hn).1) hex h2
    have hlocs : ∀ x ∈ st'.locals, x ∈ st.locals ∨ x = (v, p) := by
      intro x hx
      rcases j3 x hx with hx | hx
      · rw [hls] at hx; exact mem_setLocal hx
      · exact Or.inr hx
    -- the record of the new variable
    have hrec : Rec h seen st'.parents v p := by
      refine ⟨hvar, hf, ⟨root, hroot, hp, ?_⟩, fun y hy => j4 y ((his y).2 hy)⟩
      rcases hent with ⟨e, he, hes, _, hm⟩ | ⟨_, hm⟩
      · obtain ⟨e', he', s', l', u'⟩ := j2.le _ hm
        exact ⟨e', he', s', l', fun hout => absurd (u'.out hout) (rule1_again _ _ _)⟩
      · obtain ⟨e', he', s', l', u'⟩ := j2.le _ hm
        refine ⟨e', he', s', l', fun hout => ?_⟩
        have : useOf args v = .out := u'.out hout
        exact ⟨args, hs, by rw [← this]; exact useOf_mem (by rw [this]; decide)⟩
    have hother : ∀ w, (w, p) ∈ st.locals → ∀ e' ∈ st'.parents, e'.std = p → e'.intent ≠ .out := by
      intro w hw e' he' hs' hout
      obtain ⟨_, _, ⟨_, _, _, e0, he0, hes0, _⟩, _⟩ := hi.recs w p hw
      rcases hent with ⟨e, he, hes, _, hm⟩ | ⟨hno, _⟩
      · obtain ⟨e2, he2, s2, _, u2⟩ := j2.le _ hm
        have : e2 = e' := entry_unique j1.keys he2 he' (s2.trans hs'.symm)
        subst this
        exact rule1_again _ _ _ (u2.out hout)
      · exact hno e0 he0 hes0
    refine ⟨⟨j1.keys, j1.names, ?_, ?_, j1.writes⟩, hg.trans j2, ?_, ⟨hvar, hf, root, hroot, ?_⟩, ?_⟩
    · intro w q hwq
      rcases hlocs _ hwq with hwq | hwq
      · exact j1.recs w q hwq
      · cases hwq; exact hrec
    · intro a b q ha hb' hne e' he' hs'
      rcases hlocs _ ha with ha | ha
      · rcases hlocs _ hb' with hb' | hb'
        · exact j1.twice a b q ha hb' hne e' he' hs'
        · cases hb'; exact hother a ha e' he' hs'
      · cases ha
        rcases hlocs _ hb' with hb' | hb'
        · exact hother b hb' e' he' hs'
        · cases hb'; exact absurd rfl hne
    · exact j2.keys v (by rw [hls]; exact setLocal_keys.2)
    · rcases hent with ⟨e, he, hes, _, hm⟩ | ⟨_, hm⟩
      · obtain ⟨e', he', s', l', u'⟩ := j2.le _ hm
        exact ⟨e', he', l', u'.covers (rule1_covers _ _)⟩
      · obtain ⟨e', he', s', l', u'⟩ := j2.le _ hm
        exact ⟨e', he', l', u'.covers (rule1_covers _ none)⟩
    · intro e' he'
      rcases j5 e' he' with ⟨e, he, hs'⟩ | ⟨hl', hk⟩
      · rw [hps] at he
        rcases setParent_old hi.keys (fun o => rule1_up _ _ o) he with ⟨e0, he0, s0, _⟩ | ⟨_, rfl⟩
        · exact Or.inl ⟨e0, he0, s0.symm.trans hs'⟩
        · right
          have hs' : p = e'.std := hs'
          have hnm := j1.names e' he'
          rw [← hs'] at hnm
          have hloc : e'.loc = root := findParent_inj ho.unique hnm.1 hroot.1 hnm.2 hp
          refine ⟨hnk, ⟨hvar, hf, Or.inl (hloc ▸ hroot)⟩, ?_⟩
          rw [← hs']
          intro pv hpv d hdm
          exact j2.known (hd pv hpv d hdm)
      · exact Or.inr ⟨hnk, ⟨hvar, hf, Or.inr ((his _).1 hl')⟩, hk⟩

/-! ## Rounds and calls -/

/-- What a number of visits does -/
structure Visits (h : List HVar) (seen : List (List (Str × Intent))) (args : List (Str × Intent)) (st st' : St) (l : List Str) : Prop where
  inv : InvA h seen st'.locals st'.parents
  grows : Grows h st st'
  keys : ∀ v ∈ l, v ∈ st'.locals.map (·.1)
  covers : ∀ v ∈ l, ∃ hv, find h v = some hv ∧ ∃ x, Root hv.loc x ∧ ∃ e ∈ st'.parents, e.loc = x ∧ Covers e.intent (useOf args v)
  dims : ∀ e' ∈ st'.parents, (∃ e ∈ st.parents, e.std = e'.std) ∨ ∃ v ∈ l,
    (v ∉ st.locals.map (·.1) ∧ (∃ hv, find h v = some hv ∧ (Root hv.loc e'.loc ∨ IndexRoot hv.loc e'.loc)) ∧ DimsKnown h (args.map (·.1)) st' e'.std)

theorem visits_ok {h : List HVar} (ho : HostOk h) {seen : List (List (Str × Intent))} {args : List (Str × Intent)} (hs : args ∈ seen) :
    ∀ (l : List Str) {st st' : St}, InvA h seen st.locals st.parents → l.foldlM (visit h args) st = some st' → Visits h seen args st st' l
  | [], st, st', hi, hf => by
    cases hf
    exact ⟨hi, Grows.refl h _, (fun _ h => nomatch h), (fun _ h => nomatch h), fun e he => Or.inl ⟨e, he, rfl⟩⟩
  | v :: l, st, st', hi, hf => by
    rw [List.foldlM_cons] at hf
    obtain ⟨s1, h1, h2⟩ := Option.bind_eq_some_iff.1 hf
    have a := visit_ok ho hs hi h1
    have b := visits_ok ho hs l a.inv h2
    refine ⟨b.inv, a.grows.trans b.grows, ?_, ?_, ?_⟩
    · intro x hx
      rcases List.mem_cons.1 hx with rfl | hx
      · exact b.grows.keys _ a.key
      · exact b.keys x hx
    · intro x hx
      rcases List.mem_cons.1 hx with rfl | hx
      · obtain ⟨hv, hf, y, hy, e, he, hl, hc⟩ := a.covers
        obtain ⟨e', he', _, l', u'⟩ := b.grows.le e he
        exact ⟨hv, hf, y, hy, e', he', l'.trans hl, u'.covers hc⟩
      · exact b.covers x hx
    · intro e' he'
      rcases b.dims e' he' with ⟨e, he, hse⟩ | ⟨w, hw, hnk, hr, hk⟩
      · rcases a.dims e he with ⟨e0, he0, hs0⟩ | ⟨hnk, ⟨hv, hf, hr⟩, hk⟩
        · exact Or.inl ⟨e0, he0, hs0.trans hse⟩
        · refine Or.inr ⟨v, by simp, hnk, ⟨hv, hf, ?_⟩, ?_⟩
          · have n1 := a.inv.names e he
            have n2 := b.inv.names e' he'
            rw [hse] at n1
            rw [findParent_inj ho.unique n2.1 n1.1 n2.2 n1.2]
            exact hr
          · rw [← hse]
            intro pv hpv d hd
            exact b.grows.known (hk pv hpv d hd)
      · exact Or.inr ⟨w, List.mem_cons_of_mem _ hw, fun hk' => hnk (a.grows.keys w hk'), hr, hk⟩

theorem addFor_eq {h : List HVar} {stage : SA.Stage} {args : List Str} {st st' : St} {v : Str} (ha : addFor h stage args st v = some st') :
    ∃ hv, find h v = some hv ∧ Adds st st' ∧ (∀ d ∈ dimNames hv.dims, known args st' d = true) ∧ (∀ d ∈ hv.conds, known args st' d = true) ∧
      (stage ≠ .run → inText "cdata%blk_no".toList hv.loc = true → ∀ d ∈ ["ccpp_block_count".toList, "horizontal_dimension".toList], known args st' d = true) := by
  unfold addFor at ha
  obtain ⟨hv, hf, ha⟩ := Option.bind_eq_some_iff.1 ha
  obtain ⟨s1, h1, ha⟩ := Option.bind_eq_some_iff.1 ha
  obtain ⟨a1, b1, c1, _, e1⟩ := requires_eq _ h1
  have A1 : Adds st s1 := ⟨a1, b1, c1⟩
  obtain ⟨A3, e3⟩ := requireConds_eq _ ha
  by_cases hb : stage ≠ .run ∧ inText "cdata%blk_no".toList hv.loc = true
  · rw [if_pos hb] at A3
    obtain ⟨A2, e2⟩ := requests_eq args ["ccpp_block_count".toList, "horizontal_dimension".toList] s1
    exact ⟨hv, hf, (A1.trans A2).trans A3, fun d hd => (A2.trans A3).known (e1 d hd), e3, fun _ _ d hd => A3.known (e2 d hd)⟩
  · rw [if_neg hb] at A3
    exact ⟨hv, hf, A1.trans A3, fun d hd => A3.known (e1 d hd), e3, fun x y => absurd ⟨x, y⟩ hb⟩

theorem addFors_eq {h : List HVar} {stage : SA.Stage} {args : List Str} : ∀ (l : List Str) {st st' : St}, l.foldlM (addFor h stage args) st = some st' →
    Adds st st' ∧ ∀ v ∈ l, ∃ hv, find h v = some hv ∧ (∀ d ∈ dimNames hv.dims, known args st' d = true) ∧ (∀ d ∈ hv.conds, known args st' d = true) ∧
      (stage ≠ .run → inText "cdata%blk_no".toList hv.loc = true → ∀ d ∈ ["ccpp_block_count".toList, "horizontal_dimension".toList], known args st' d = true)
  | [], st, st', hr => by cases hr; exact ⟨⟨rfl, rfl, fun _ h => h⟩, (fun _ h => nomatch h)⟩
  | v :: l, st, st', hr => by
    rw [List.foldlM_cons] at hr
    obtain ⟨s1, h1, h2⟩ := Option.bind_eq_some_iff.1 hr
    obtain ⟨hv, hf, A, a, b, c⟩ := addFor_eq h1
    obtain ⟨B, ih⟩ := addFors_eq l h2
    refine ⟨A.trans B, fun x hx => ?_⟩
    rcases List.mem_cons.1 hx with rfl | hx
    · exact ⟨hv, hf, fun d hd => B.known (a d hd), fun d hd => B.known (b d hd), fun p q d hd => B.known (c p q d hd)⟩
    · exact ih x hx

theorem inText_iff (t : Str) : ∀ (s : Str), inText t s = true ↔ t <:+: s
  | [] => by
    rw [inText, List.isEmpty_iff, List.infix_nil]
  | c :: s => by
    rw [inText, Bool.or_eq_true, inText_iff t s, List.infix_cons_iff, List.isPrefixOf_iff_prefix]

theorem dimOf_iff {v : HVar} {d : Str} (h : DimOf v d) : d ∈ dimNames v.dims := by
  obtain ⟨parts, hne, hc, hm, hn, p, hp, rfl⟩ := h
  unfold dimNames
  rw [List.mem_filterMap]
  refine ⟨p, ?_, by simp [PB.isInt_name hn]⟩
  rw [List.mem_flatten]
  refine ⟨parts, ?_, hp⟩
  rw [List.mem_map]
  exact ⟨_, hm, PB.splitOn_joined hne hc⟩

theorem dimNames_of {h : List HVar} (hd : DimsOk h) {v : HVar} (hv : v ∈ h) {d : Str} (hm : d ∈ dimNames v.dims) : DimOf v d := by
  unfold dimNames at hm
  rw [List.mem_filterMap] at hm
  obtain ⟨p, hp, he⟩ := hm
  rw [List.mem_flatten] at hp
  obtain ⟨l, hl, hpl⟩ := hp
  obtain ⟨e, he', rfl⟩ := List.mem_map.1 hl
  obtain ⟨parts, hne, rfl, hparts⟩ := hd v hv e he'
  rw [PB.splitOn_joined hne fun p hp => (hparts p hp).1] at hpl
  split at he
  · cases he
  · rename_i hint
    simp only [Option.some.injEq] at he
    refine ⟨parts, hne, fun p hp => (hparts p hp).1, he', ?_, p, hpl, he.symm⟩
    rcases (hparts p hpl).2 with h | h
    · exact absurd (PB.isInt_literal h) hint
    · rw [← he]; exact h

/-- What is needed is known before the rounds -/
theorem prepare_ok {h : List HVar} (hu : (h.map (·.std)).Nodup) {stage : SA.Stage} {args : List (Str × Intent)} {st st' : St} (hp : prepare h stage args st = some st') :
    st'.locals = st.locals ∧ st'.parents = st.parents ∧ ∀ d, Needed h stage args d → known (args.map (·.1)) st' d = true := by
  unfold prepare at hp
  obtain ⟨A, ha⟩ := addFors_eq _ hp
  obtain ⟨B, hb⟩ := requests_eq (args.map (·.1)) (mandatory h stage) { st with add := [] }
  refine ⟨A.1.trans B.1, A.2.1.trans B.2.1, ?_⟩
  have harg : ∀ {v : HVar} {i : Intent}, (v.std, i) ∈ args → v ∈ h → ∃ hv, hv = v ∧ (∀ d ∈ dimNames hv.dims, known (args.map (·.1)) st' d = true) ∧ (∀ d ∈ hv.conds, known (args.map (·.1)) st' d = true) ∧
      (stage ≠ .run → inText "cdata%blk_no".toList hv.loc = true → ∀ d ∈ ["ccpp_block_count".toList, "horizontal_dimension".toList], known (args.map (·.1)) st' d = true) := by
    intro v i hvi hv
    obtain ⟨hv', hf, r⟩ := ha v.std (List.mem_map.2 ⟨_, hvi, rfl⟩)
    rw [find_of_mem hu hv] at hf
    exact ⟨hv', (Option.some.inj hf).symm, r⟩
  intro d hd
  cases hd with
  | dim hvi hv hdim => obtain ⟨_, rfl, r, _⟩ := harg hvi hv; exact r d (dimOf_iff hdim)
  | cond hvi hv hc => obtain ⟨_, rfl, _, r, _⟩ := harg hvi hv; exact r d hc
  | block hvi hv hst hin hdd =>
    obtain ⟨_, rfl, _, _, r⟩ := harg hvi hv
    exact r hst ((inText_iff _ _).2 hin) d (by simpa using hdd)
  | extent hv hve hdd =>
    refine A.known (hb d ?_)
    have : (find h "horizontal_loop_extent".toList).isSome = true := by rw [← hve, find_of_mem hu hv]; rfl
    unfold mandatory
    rw [if_pos this]
    simpa using hdd
  | chunk hst hno ha' hb' hc' ea eb ec hdd =>
    refine A.known (hb d ?_)
    have hn : ¬ (find h "horizontal_loop_extent".toList).isSome = true := by
      intro hsome
      obtain ⟨w, hw⟩ := Option.isSome_iff_exists.1 hsome
      exact hno w (find_mem hw).1 (find_mem hw).2
    unfold mandatory
    rw [if_neg hn, if_pos ⟨hst, by rw [← ea, find_of_mem hu ha']; rfl, by rw [← eb, find_of_mem hu hb']; rfl, by rw [← ec, find_of_mem hu hc']; rfl⟩]
    rw [ea, eb, ec] at hdd
    simpa using hdd

/-- The dimensions of all parents are among the variables -/
def Closed (h : List HVar) (st : St) : Prop :=
  ∀ e ∈ st.parents, ∀ pv, find h e.std = some pv → ∀ d ∈ dimNames pv.dims, d ∈ st.locals.map (·.1)

/-- What a call does -/
structure Called (h : List HVar) (stage : SA.Stage) (seen : List (List (Str × Intent))) (args : List (Str × Intent)) (st st' : St) : Prop where
  inv : InvA h seen st'.locals st'.parents
  le : Le st.parents st'.parents
  keys : ∀ d ∈ st.locals.map (·.1), d ∈ st'.locals.map (·.1)
  argKeys : ∀ v ∈ args.map (·.1), v ∈ st'.locals.map (·.1)
  needed : ∀ d, Needed h stage args d → d ∈ st'.locals.map (·.1)
  covers : ∀ v ∈ args.map (·.1), ∃ hv, find h v = some hv ∧ ∃ x, Root hv.loc x ∧ ∃ e ∈ st'.parents, e.loc = x ∧ Covers e.intent (useOf args v)
  closed : DimsOk h → FlatDims h → Closed h st → Closed h st'

theorem call_ok {h : List HVar} (ho : HostOk h) {stage : SA.Stage} {seen : List (List (Str × Intent))} {args : List (Str × Intent)} (hs : args ∈ seen) {st st' : St}
    (hi : InvA h seen st.locals st.parents) (hc : call h stage st args = some st') : Called h stage seen args st st' := by
  unfold call at hc
  obtain ⟨s1, h1, hc⟩ := Option.bind_eq_some_iff.1 hc
  obtain ⟨s2, h2, h3⟩ := Option.bind_eq_some_iff.1 hc
  obtain ⟨a1, b1, c1⟩ := prepare_ok ho.unique h1
  have hi1 : InvA h seen s1.locals s1.parents := by rw [a1, b1]; exact hi
  have r1 := visits_ok ho hs _ hi1 h2
  have r2 := visits_ok ho hs _ r1.inv h3
  have hkn : ∀ d, known (args.map (·.1)) s1 d = true → d ∈ st'.locals.map (·.1) := by
    intro d hd
    rcases (known_iff _ _ _).1 hd with hd | hd | hd
    · exact r2.grows.keys d (r1.grows.keys d hd)
    · exact r2.grows.keys d (r1.keys d (List.mem_append_left _ hd))
    · exact r2.grows.keys d (r1.keys d (List.mem_append_right _ hd))
  refine ⟨r2.inv, by rw [← b1]; exact r1.grows.le.trans r2.grows.le, ?_, ?_, fun d hd => hkn d (c1 d hd), ?_, ?_⟩
  · intro d hd
    exact r2.grows.keys d (r1.grows.keys d (by rw [a1]; exact hd))
  · intro v hv
    exact r2.keys v (List.mem_append_right _ hv)
  · intro v hv
    exact r2.covers v (List.mem_append_right _ hv)
  · intro hdok hflat hcl e' he' pv hpv d hd
    rcases r2.dims e' he' with ⟨e, he, hse⟩ | ⟨v, hv, hnk, ⟨hvar, hf, hr⟩, _⟩
    · rcases r1.dims e he with ⟨e0, he0, hs0⟩ | ⟨w, _, _, _, hk⟩
      · rw [b1] at he0
        have := hcl e0 he0 pv (by rw [hs0, hse]; exact hpv) d hd
        exact r2.grows.keys d (r1.grows.keys d (by rw [a1]; exact this))
      · have := hk pv (by rw [hse]; exact hpv) d hd
        rcases (known_iff _ _ _).1 this with hd | hd | hd
        · exact r2.grows.keys d hd
        · exact r2.keys d (List.mem_append_left _ hd)
        · exact r2.keys d (List.mem_append_right _ hd)
    · have hany : AnyDim h v := by
        rcases List.mem_append.1 hv with hv | hv
        · rcases r1.grows.new v hv with hv | hv
          · exact absurd (r1.keys v (List.mem_append_left _ hv)) hnk
          · exact hv
        · exact absurd (r1.keys v (List.mem_append_right _ hv)) hnk
      obtain ⟨w, hw, hwd⟩ := hany
      obtain ⟨pv', hpv', hst, hwh⟩ := findParent_some (r2.inv.names e' he').2
      have hpe : pv' = pv := by
        have := find_of_mem ho.unique hpv'
        rw [hst, hpv] at this
        exact (Option.some.inj this).symm
      subst hpe
      have := hflat w hw v (dimNames_of hdok hw hwd) hvar (find_mem hf).1 (find_mem hf).2 _ hr pv' hpv' hwh
      rw [this] at hd
      cases hd

theorem calls_ok {h : List HVar} (ho : HostOk h) {stage : SA.Stage} : ∀ (calls : List (List (Str × Intent))) {seen : List (List (Str × Intent))} {st st' : St},
    InvA h seen st.locals st.parents → calls.foldlM (call h stage) st = some st' → InvA h (seen ++ calls) st'.locals st'.parents ∧ Le st.parents st'.parents ∧
      (∀ d ∈ st.locals.map (·.1), d ∈ st'.locals.map (·.1)) ∧
      (∀ c ∈ calls, ∀ v ∈ c.map (·.1), v ∈ st'.locals.map (·.1) ∧ ∃ hv, find h v = some hv ∧ ∃ x, Root hv.loc x ∧ ∃ e ∈ st'.parents, e.loc = x ∧ Covers e.intent (useOf c v)) ∧
      (DimsOk h → FlatDims h → Closed h st → Closed h st')
  | [], seen, st, st', hi, hf => by
    cases hf
    exact ⟨by rw [List.append_nil]; exact hi, Le.refl _, fun _ h => h, (fun _ h => nomatch h), fun _ _ h => h⟩
  | c :: calls, seen, st, st', hi, hf => by
    rw [List.foldlM_cons] at hf
    obtain ⟨s1, h1, h2⟩ := Option.bind_eq_some_iff.1 hf
    have k := call_ok ho (seen := seen ++ [c]) (by simp) (hi.seen fun _ h => List.mem_append_left _ h) h1
    obtain ⟨j1, j2, j3, j4, j5⟩ := calls_ok ho calls k.inv h2
    refine ⟨by simpa using j1, k.le.trans j2, fun d hd => j3 d (k.keys d hd), ?_, fun a b cl => j5 a b (k.closed a b cl)⟩
    intro c' hc' v hv
    rcases List.mem_cons.1 hc' with rfl | hc'
    · refine ⟨j3 v (k.argKeys v hv), ?_⟩
      obtain ⟨hv', hf', x, hx, e, he, hl, hcv⟩ := k.covers v hv
      obtain ⟨e', he', _, l', u'⟩ := j2 e he
      exact ⟨hv', hf', x, hx, e', he', l'.trans hl, u'.covers hcv⟩
    · exact j4 c' hc' v hv

theorem inv_start (h : List HVar) : InvA h [] [] [] :=
  ⟨List.nodup_nil, (fun _ h => nomatch h), (fun _ _ h => nomatch h), (fun _ _ _ h => nomatch h), (fun _ h => nomatch h)⟩

/-- The result of a group -/
theorem group_some {h : List HVar} {stage : SA.Stage} {calls : List (List (Str × Intent))} {ps : List Parent} (hg : group h stage calls = some ps) :
    ∃ st, calls.foldlM (call h stage) ⟨[], [], []⟩ = some st ∧ (st.parents = ps ∨ (stage = .init ∧ st.parents = [] ∧ ∃ c, find h "ccpp_t_instance".toList = some c ∧ ps = [⟨c.std, c.loc, .in⟩])) := by
  unfold group at hg
  obtain ⟨st, h1, h2⟩ := Option.bind_eq_some_iff.1 hg
  refine ⟨st, h1, ?_⟩
  split at h2
  · rename_i hc
    obtain ⟨c, hc', rfl⟩ := Option.map_eq_some_iff.1 h2
    exact Or.inr ⟨hc.1, hc.2, c, hc', rfl⟩
  · exact Or.inl (Option.some.inj h2)

theorem group_parents {h : List HVar} {stage : SA.Stage} {calls : List (List (Str × Intent))} {ps : List Parent} {st : St}
    (hp : st.parents = ps ∨ (stage = .init ∧ st.parents = [] ∧ ∃ c, find h "ccpp_t_instance".toList = some c ∧ ps = [⟨c.std, c.loc, .in⟩]))
    {e : Parent} (he : e ∈ st.parents) : st.parents = ps := by
  rcases hp with hp | ⟨_, hp, _⟩
  · exact hp
  · rw [hp] at he; cases he

/-! ## The theorems -/

/-- **C74**  Every host variable that is passed to a scheme is declared: the variable itself, or the variable of which it is a component,
with an intent that allows what the scheme does, and everything in the indices, with an intent that allows reading. -/
theorem C74_arguments {h : List HVar} (ho : HostOk h) {stage : SA.Stage} {calls : List (List (Str × Intent))} {ps : List Parent}
    (hg : group h stage calls = some ps) {c : List (Str × Intent)} (hc : c ∈ calls) (hn : (c.map (·.1)).Nodup) {v : Str} {i : Intent} (hv : (v, i) ∈ c) :
    ∃ hv ∈ h, hv.std = v ∧ (∀ x, Root hv.loc x → ∃ k, Declares h ps x k ∧ Covers k i) ∧ (∀ x, IndexRoot hv.loc x → ∃ k, Declares h ps x k ∧ Reads k) := by
  obtain ⟨st, hf, hp⟩ := group_some hg
  obtain ⟨j1, _, _, j4, _⟩ := calls_ok ho calls (inv_start h) hf
  obtain ⟨hkey, hvar, hfv, x, hx, e, he, hl, hcov⟩ := j4 c hc v (List.mem_map.2 ⟨_, hv, rfl⟩)
  have hps := group_parents (calls := calls) hp he
  rw [hps] at j1 he
  have huse : useOf c v = i := by unfold useOf; rw [lookup_of_mem hn hv]; rfl
  rw [huse] at hcov
  refine ⟨hvar, (find_mem hfv).1, (find_mem hfv).2, ?_, ?_⟩
  · intro y hy
    have : y = x := (root_takeWhile hy).symm.trans (root_takeWhile hx)
    subst this
    exact ⟨e.intent, ⟨e, he, hl, hl ▸ findParent_some (j1.names e he).2, rfl⟩, hcov⟩
  · intro y hy
    obtain ⟨⟨w, q⟩, hwq, rfl⟩ := List.mem_map.1 hkey
    obtain ⟨hv', hf', _, hidx⟩ := j1.recs w q hwq
    rw [hfv] at hf'
    cases hf'
    obtain ⟨e', he', hl', ho'⟩ := hidx y hy
    exact ⟨e'.intent, ⟨e', he', hl', hl' ▸ findParent_some (j1.names e' he').2, rfl⟩, (reads_iff _).2 ho'⟩

/-- What a variable in `local_vars` gives -/
theorem rec_declared {h : List HVar} {seen : List (List (Str × Intent))} {L : List (Str × Str)} {ps : List Parent} (hi : InvA h seen L ps) {d : Str} (hd : d ∈ L.map (·.1)) :
    ∃ hv ∈ h, hv.std = d ∧ (∀ x, Root hv.loc x → ∃ k, Declares h ps x k ∧ (Reads k ∨ ∃ c ∈ seen, (d, Intent.out) ∈ c)) ∧
      (∀ x, IndexRoot hv.loc x → ∃ k, Declares h ps x k ∧ Reads k) := by
  obtain ⟨⟨w, q⟩, hwq, rfl⟩ := List.mem_map.1 hd
  obtain ⟨hv, hf, ⟨x, hx, hp, e, he, hes, hel, hout⟩, hidx⟩ := hi.recs w q hwq
  refine ⟨hv, (find_mem hf).1, (find_mem hf).2, ?_, ?_⟩
  · intro y hy
    have : y = x := (root_takeWhile hy).symm.trans (root_takeWhile hx)
    subst this
    refine ⟨e.intent, ⟨e, he, hel, hel ▸ findParent_some (hi.names e he).2, rfl⟩, ?_⟩
    by_cases ho : e.intent = .out
    · exact Or.inr (hout ho)
    · exact Or.inl ((reads_iff _).2 ho)
  · intro y hy
    obtain ⟨e', he', hl', ho'⟩ := hidx y hy
    exact ⟨e'.intent, ⟨e', he', hl', hl' ▸ findParent_some (hi.names e' he').2, rfl⟩, (reads_iff _).2 ho'⟩

/-- **C74**  Everything that the cap reads for a call (dimensions and conditions of arguments, bounds of the horizontal loops) is declared,
with an intent that allows reading unless the variable itself is written, as an `intent(out)` argument, by this or an earlier call; and so is
everything in the indices. -/
theorem C74_needed_partial {h : List HVar} (ho : HostOk h) {stage : SA.Stage} {before after : List (List (Str × Intent))} {c : List (Str × Intent)} {ps : List Parent}
    (hg : group h stage (before ++ c :: after) = some ps) {d : Str} (hd : Needed h stage c d) :
    ∃ hv ∈ h, hv.std = d ∧ (∀ x, Root hv.loc x → ∃ k, Declares h ps x k ∧ (Reads k ∨ ∃ c' ∈ before ++ [c], (d, Intent.out) ∈ c')) ∧
      (∀ x, IndexRoot hv.loc x → ∃ k, Declares h ps x k ∧ Reads k) := by
  obtain ⟨st, hf, hp⟩ := group_some hg
  rw [List.foldlM_append] at hf
  obtain ⟨s1, h1, hf⟩ := Option.bind_eq_some_iff.1 hf
  rw [List.foldlM_cons] at hf
  obtain ⟨s2, h2, h3⟩ := Option.bind_eq_some_iff.1 hf
  obtain ⟨a1, _⟩ := calls_ok ho before (inv_start h) h1
  rw [List.nil_append] at a1
  have k := call_ok ho (seen := before ++ [c]) (by simp) (a1.seen fun _ h => List.mem_append_left _ h) h2
  obtain ⟨j1, j2, _⟩ := calls_ok ho after k.inv h3
  obtain ⟨hv, hvm, hvs, r1, r2⟩ := rec_declared k.inv (k.needed d hd)
  have up : ∀ x kk, Declares h s2.parents x kk → ∃ k', Declares h ps x k' ∧ Up kk k' := by
    rintro x kk ⟨e, he, hl, hr, rfl⟩
    obtain ⟨e', he', s', l', u'⟩ := j2 e he
    have hps := group_parents (calls := before ++ c :: after) hp he'
    rw [hps] at he'
    exact ⟨e'.intent, ⟨e', he', l'.trans hl, by rw [s']; exact hr, rfl⟩, u'⟩
  refine ⟨hv, hvm, hvs, ?_, ?_⟩
  · intro x hx
    obtain ⟨kk, hk, hrd⟩ := r1 x hx
    obtain ⟨k', hk', u⟩ := up x kk hk
    refine ⟨k', hk', ?_⟩
    rcases hrd with hrd | hrd
    · exact Or.inl ((reads_iff _).2 fun hout => (reads_iff _).1 hrd (u.out hout))
    · exact Or.inr hrd
  · intro x hx
    obtain ⟨kk, hk, hrd⟩ := r2 x hx
    obtain ⟨k', hk', u⟩ := up x kk hk
    exact ⟨k', hk', (reads_iff _).2 fun hout => (reads_iff _).1 hrd (u.out hout)⟩

/-- **C74**  If the variables that are dimensions are (components of) scalars, then all bounds of the dummy arguments are declared, too. -/
theorem C74_bounds_partial {h : List HVar} (ho : HostOk h) (hd : DimsOk h) (hfl : FlatDims h) {stage : SA.Stage} {calls : List (List (Str × Intent))} {ps : List Parent}
    (hg : group h stage calls = some ps) (hne : ∃ c ∈ calls, c ≠ []) {e : Parent} (he : e ∈ ps) {pv : HVar} (hpv : pv ∈ h) (hpe : pv.std = e.std) {d : Str} (hdim : DimOf pv d) :
    ∃ hv ∈ h, hv.std = d ∧ (∀ x, Root hv.loc x → ∃ k, Declares h ps x k ∧ (Reads k ∨ ∃ c ∈ calls, (d, Intent.out) ∈ c)) ∧
      (∀ x, IndexRoot hv.loc x → ∃ k, Declares h ps x k ∧ Reads k) := by
  obtain ⟨st, hf, hp⟩ := group_some hg
  obtain ⟨j1, _, _, j4, j5⟩ := calls_ok ho calls (inv_start h) hf
  obtain ⟨c, hc, hcne⟩ := hne
  have hps : st.parents = ps := by
    cases c with
    | nil => exact absurd rfl hcne
    | cons a c =>
      obtain ⟨_, _, _, _, _, e', he', _⟩ := j4 _ hc a.1 (by simp)
      exact group_parents (calls := calls) hp he'
  rw [List.nil_append] at j1
  have hcl := j5 hd hfl (fun _ h => nomatch h)
  have hk := hcl e (hps ▸ he) pv (by rw [← hpe]; exact find_of_mem ho.unique hpv) d (dimOf_iff hdim)
  rw [← hps]
  exact rec_declared j1 hk

/-- **C74**  A cap can write a host variable only if a scheme of the group writes it, or a component of it. -/
theorem C74_writes {h : List HVar} (ho : HostOk h) {stage : SA.Stage} {calls : List (List (Str × Intent))} {ps : List Parent}
    (hg : group h stage calls = some ps) {e : Parent} (he : e ∈ ps) (hw : Writes e.intent) :
    ∃ c ∈ calls, ∃ v i, (v, i) ∈ c ∧ Writes i ∧ ∃ hv ∈ h, hv.std = v ∧ Root hv.loc e.loc := by
  have hne : e.intent ≠ .in := by rcases hw with hw | hw <;> rw [hw] <;> decide
  obtain ⟨st, hf, hp⟩ := group_some hg
  obtain ⟨j1, _⟩ := calls_ok ho calls (inv_start h) hf
  rw [List.nil_append] at j1
  have : e ∈ st.parents := by
    rcases hp with hp | ⟨_, _, c, _, hp⟩
    · rw [hp]; exact he
    · rw [hp, List.mem_singleton] at he
      rw [he] at hne
      exact absurd rfl hne
  obtain ⟨c, hc, v, i, hvi, hine, hv, hfv, hr⟩ := j1.writes e this hne
  refine ⟨c, hc, v, i, hvi, ?_, hv, (find_mem hfv).1, (find_mem hfv).2, hr⟩
  cases i with
  | «in» => exact absurd rfl hine
  | out => exact Or.inl rfl
  | inout => exact Or.inr rfl

/-- **C74**  If two different arguments of calls are components of the same host variable, the intent of that variable allows reading: what the
schemes do not write keeps its value. -/
theorem C74_shared {h : List HVar} (ho : HostOk h) {stage : SA.Stage} {calls : List (List (Str × Intent))} {ps : List Parent}
    (hg : group h stage calls = some ps) {c c' : List (Str × Intent)} (hc : c ∈ calls) (hc' : c' ∈ calls) {v w : HVar} {i j : Intent} (hv : (v.std, i) ∈ c) (hw : (w.std, j) ∈ c')
    (hvh : v ∈ h) (hwh : w ∈ h) (hne : v.std ≠ w.std) {x : Str} (hrv : Root v.loc x) (hrw : Root w.loc x) : ∃ k, Declares h ps x k ∧ Reads k := by
  obtain ⟨st, hf, hp⟩ := group_some hg
  obtain ⟨j1, _, _, j4, _⟩ := calls_ok ho calls (inv_start h) hf
  obtain ⟨hkv, _⟩ := j4 c hc v.std (List.mem_map.2 ⟨_, hv, rfl⟩)
  obtain ⟨hkw, _⟩ := j4 c' hc' w.std (List.mem_map.2 ⟨_, hw, rfl⟩)
  have key : ∀ (u : HVar), u ∈ h → Root u.loc x → u.std ∈ st.locals.map (·.1) → ∃ q, (u.std, q) ∈ st.locals ∧ findParent h x = some q ∧ ∃ e ∈ st.parents, e.std = q ∧ e.loc = x := by
    intro u hu hr hk
    obtain ⟨⟨a, q⟩, hm, ha⟩ := List.mem_map.1 hk
    have ha : a = u.std := ha
    subst ha
    obtain ⟨hu', hfu, ⟨y, hy, hq, e, he, hs, hl, _⟩, _⟩ := j1.recs _ q hm
    rw [find_of_mem ho.unique hu] at hfu
    cases hfu
    have : y = x := (root_takeWhile hy).symm.trans (root_takeWhile hr)
    subst this
    exact ⟨q, hm, hq, e, he, hs, hl⟩
  obtain ⟨q, hmv, hqv, e, he, hs, hl⟩ := key v hvh hrv hkv
  obtain ⟨q', hmw, hqw, _⟩ := key w hwh hrw hkw
  rw [hqv] at hqw
  cases hqw
  have hno := j1.twice _ _ q hmv hmw hne e he hs
  have hps := group_parents (calls := calls) hp he
  refine ⟨e.intent, ⟨e, hps ▸ he, hl, ?_, rfl⟩, (reads_iff _).2 hno⟩
  exact hl ▸ findParent_some (j1.names e he).2

end Ccpp.PA
