import Verif.Props.VarEntryCoherent
/-!
# C86: one variable of a metadata table
-/
namespace Ccpp.VE

open MF (Val)

variable {fl : Str → Option Num} {scheme skip : Bool} {known reg : List Str}

theorem last_mem {P : Str × Str → Prop} {es : List (Str × Str)} {s : Str} (h : Last P es s) : ∃ e ∈ es, P e ∧ e.2 = s := by
  cases h with
  | @mk xs ys e _ h1 h2 h3 => exact ⟨e, by simp, h1, h2⟩

/-- The dictionary after the special case of the local name. -/
def setName (r : Option Str) (d : Dict) : Dict :=
  match r with
  | some n => d.set "local_name".toList (.text n)
  | none => d

theorem setName_get (r : Option Str) (d : Dict) : (setName r d).get = renamed r d.get := by
  funext k
  cases r with
  | none => rfl
  | some n => exact get_set d _ _ k

/-- The values in the dictionary after the first reading. -/
theorem okAll {name : Str} (hn : name.getLast? ≠ some '\n') {es : List (Str × Str)} (hc : ∀ e ∈ es, Clean e.2) {d : Dict}
    (hw : ∀ k v, d.get k = some v ↔ Written fl name es k v) {r : Option Str} (hr : NameFits (d.get "dimensions".toList) name r) :
    OkAll fl (ddtCase (setName r d)).1 := by
  have base : ∀ k v, k ≠ "ddt_type".toList → renamed r d.get k = some v → OkVal fl k v := by
    intro k v hk hv
    have frm : r = none → Chk.IsName name := by
      intro h
      cases hr with
      | name h' => exact h'
      | ref => cases h
    have wr : d.get k = some v → (k = "local_name".toList → r = none) → OkVal fl k v := by
      intro hg hl
      rcases (hw k v).1 hg with ⟨h, -⟩ | ⟨-, s, h1, h2⟩ | ⟨h1, -, rfl⟩
      · exact absurd h hk
      · obtain ⟨e, he, -, rfl⟩ := last_mem h1
        exact .read h2 (hc e he)
      · rw [h1]; exact .name (.inl (frm (hl h1))) hn
    cases hr with
    | name h => exact wr hv fun _ => rfl
    | ref h h7 =>
      unfold renamed at hv
      simp only at hv
      split at hv
      · next hk =>
        cases hv; rw [hk]
        exact .name (.inr ⟨_, _, h7, pretty_ref h⟩) (ref_clean (pretty_ref h))
      · next hk' => exact wr hv fun h => absurd h hk'
  intro k v hv
  rw [final_get, setName_get] at hv
  unfold Final at hv
  have hd : ∀ t, renamed r d.get "ddt_type".toList = some t → ∃ s, t = .text s := by
    intro t ht
    have : d.get "ddt_type".toList = some t := by
      cases r with
      | none => exact ht
      | some n => unfold renamed at ht; simp only at ht; rwa [if_neg (by decide)] at ht
    rcases (hw _ _).1 this with ⟨-, s, -, rfl⟩ | ⟨h, -⟩ | ⟨h, -⟩
    · exact ⟨s, rfl⟩
    · exact absurd rfl h
    · exact absurd h (by decide)
  cases ht : renamed r d.get "ddt_type".toList with
  | none =>
    rw [ht] at hv
    exact base k v (fun h => by rw [h, ht] at hv; cases hv) hv
  | some t =>
    rw [ht] at hv
    obtain ⟨s, rfl⟩ := hd t ht
    simp only at hv
    split at hv
    · cases hv
    · next hk =>
      split at hv
      · next h => cases hv; rw [h]; exact .kind
      · split at hv
        · next h =>
          cases hh : renamed r d.get k with
          | none => rw [hh] at hv; cases hv; rw [h]; exact .type
          | some x => rw [hh] at hv; cases hv; exact base k _ hk hh
        · split at hv
          · next h =>
            cases hh : renamed r d.get k with
            | none => rw [hh] at hv; cases hv; rw [h]; exact .units
            | some x => rw [hh] at hv; cases hv; exact base k _ hk hh
          · exact base k v hk hv

theorem coherent_congr {p q : Str → Prop} (h : ∀ t, p t ↔ q t) (g : Str → Option Val) : Coherent scheme p g ↔ Coherent scheme q g := by
  have : p = q := funext fun t => propext (h t)
  rw [this]

theorem parse_eq {name : Str} {es : List (Str × Str)} {s : St}
    (h : steps fl skip known { dict := [("local_name".toList, .text name)], reg := reg } es = .ok s) (hs : s.ok = true) :
    parse fl scheme skip known reg name es =
      match MF.arrayReference name s.dict.get with
      | none => .crash .internal
      | some r => newVar fl scheme s.reg (setName r s.dict) := by
  unfold parse
  rw [h]
  simp only [hs, if_true]
  cases MF.arrayReference name s.dict.get with
  | none => rfl
  | some r => cases r <;> rfl

theorem result_unique {name : Str} {es : List (Str × Str)} (hn : name.getLast? ≠ some '\n') {g g' : Str → Option Val}
    (h : Result fl name es g) (h' : Result fl name es g') : g = g' := by
  obtain ⟨w, r, h1, h2, rfl⟩ := h
  obtain ⟨w', r', h1', h2', rfl⟩ := h'
  have hw : w = w' := by
    funext k
    cases hk : w k with
    | none =>
      cases hk' : w' k with
      | none => rfl
      | some v => rw [(h1 k v).2 ((h1' k v).1 hk')] at hk; cases hk
    | some v => exact ((h1' k v).2 ((h1 k v).1 hk)).symm
  subst hw
  have : some r = some r' := by rw [← (arrayReference_iff hn w r).2 h2, ← (arrayReference_iff hn w r').2 h2']
  rw [Option.some.inj this]

/-- The two results of the reading of legal entries. -/
theorem parse_legal {name : Str} (hn : name.getLast? ≠ some '\n') {es : List (Str × Str)} (hc : ∀ e ∈ es, Clean e.2)
    (hl : ∀ e ∈ es, Legal fl skip known e) : ∃ d reg', Unique d ∧ (∀ k v, d.get k = some v ↔ Written fl name es k v) ∧
      (∀ t, t ∈ reg' ↔ TypeName skip reg es t) ∧
      ∀ r, NameFits (d.get "dimensions".toList) name r → parse fl scheme skip known reg name es = newVar fl scheme reg' (setName r d) := by
  obtain ⟨kvs, hk⟩ := gives_of_legal hl
  obtain ⟨p, hp⟩ := steps_good hc hk (s := { dict := [("local_name".toList, .text name)], reg := reg }) rfl
  refine ⟨_, es.foldl (regAfter skip) reg, unique_assigned (d := [("local_name".toList, .text name)]) (by unfold Unique; simp) kvs,
    written_iff name hc hk, reg_mem reg es, ?_⟩
  intro r hr
  rw [parse_eq hp rfl, (arrayReference_iff hn _ r).2 hr]

/-- What has to hold if a variable is the result. -/
theorem parse_var {name : Str} (hn : name.getLast? ≠ some '\n') {es : List (Str × Str)} (hc : ∀ e ∈ es, Clean e.2) {D : Dict} {i c : Bool}
    (h : parse fl scheme skip known reg name es = .var D i c) : (∀ e ∈ es, Legal fl skip known e) ∧
      ∃ d reg' r, Unique d ∧ (∀ k v, d.get k = some v ↔ Written fl name es k v) ∧ (∀ t, t ∈ reg' ↔ TypeName skip reg es t) ∧
        NameFits (d.get "dimensions".toList) name r ∧ newVar fl scheme reg' (setName r d) = .var D i c := by
  have hst : ∃ s, steps fl skip known { dict := [("local_name".toList, .text name)], reg := reg } es = .ok s ∧ s.ok = true := by
    unfold parse at h
    cases hs : steps fl skip known { dict := [("local_name".toList, .text name)], reg := reg } es with
    | error r =>
      exfalso
      rw [hs] at h
      simp only at h
      subst h
      have : ∀ (es : List (Str × Str)) (s : St), steps fl skip known s es ≠ .error (.var D i c) := by
        intro es
        induction es with
        | nil => intro s hh; cases hh
        | cons e es ih =>
          intro s hh
          unfold steps at hh
          cases h1 : step fl skip known s e with
          | ok t => rw [h1] at hh; exact ih t hh
          | error x =>
            rw [h1] at hh
            change Except.error x = _ at hh
            cases hh
            unfold step at h1
            split at h1
            · split at h1 <;> cases h1
            · split at h1
              · split at h1 <;> cases h1
              · split at h1 <;> cases h1
      exact this _ _ hs
    | ok s =>
      rw [hs] at h
      simp only at h
      refine ⟨s, rfl, ?_⟩
      by_contra hh
      rw [if_neg hh] at h
      cases h
  obtain ⟨s, hs, hok⟩ := hst
  obtain ⟨-, kvs, hk⟩ := steps_bad hc hs hok
  have hl := legal_of_gives hk
  obtain ⟨p, hp⟩ := steps_good hc hk (s := { dict := [("local_name".toList, .text name)], reg := reg }) rfl
  rw [hs] at hp
  cases hp
  rw [parse_eq hs rfl] at h
  refine ⟨hl, ?_⟩
  cases ha : MF.arrayReference name (assigned [("local_name".toList, .text name)] kvs).get with
  | none => rw [ha] at h; cases h
  | some r =>
    rw [ha] at h
    exact ⟨_, es.foldl (regAfter skip) reg, r, unique_assigned (d := [("local_name".toList, .text name)]) (by unfold Unique; simp) kvs,
      written_iff name hc hk, reg_mem reg es, (arrayReference_iff hn _ r).1 ha, h⟩

theorem unique_setName {d : Dict} (h : Unique d) (r : Option Str) : Unique (setName r d) := by
  cases r with
  | none => exact h
  | some n => exact unique_set h _ _

/-- C86: a variable is accepted exactly if every entry is legal, the local name fits, and the properties fit together. -/
theorem C86_accept {name : Str} (hn : name.getLast? ≠ some '\n') {es : List (Str × Str)} (hc : ∀ e ∈ es, Clean e.2) :
    (∃ D i c, parse fl scheme skip known reg name es = .var D i c) ↔
      ((∀ e ∈ es, Legal fl skip known e) ∧ ∃ g, Result fl name es g ∧ Coherent scheme (TypeName skip reg es) g) := by
  constructor
  · rintro ⟨D, i, c, h⟩
    obtain ⟨hl, d, reg', r, hu, hw, hreg, hr, h⟩ := parse_var hn hc h
    refine ⟨hl, _, ⟨d.get, r, hw, hr, rfl⟩, ?_⟩
    obtain ⟨-, -, -, h1, h2, h3⟩ := (newVar_iff (unique_setName hu r) D i c).1 h
    have := (coherent_iff (okAll hn hc hw hr) scheme).1 ⟨h1, h2, h3⟩
    rw [final_get, setName_get] at this
    exact (coherent_congr hreg _).1 this
  · rintro ⟨hl, g, ⟨w, r, h1, h2, rfl⟩, hg⟩
    obtain ⟨d, reg', hu, hw, hreg, hp⟩ := parse_legal (scheme := scheme) (reg := reg) hn hc hl
    have hwd : w = d.get := by
      funext k
      cases hk : w k with
      | none =>
        cases hk' : d.get k with
        | none => rfl
        | some v => rw [(h1 k v).2 ((hw k v).1 hk')] at hk; cases hk
      | some v => exact ((hw k v).2 ((h1 k v).1 hk)).symm
    subst hwd
    rw [hp r h2]
    have := (coherent_congr hreg _).2 hg
    rw [← setName_get, ← final_get] at this
    obtain ⟨a, b, c⟩ := (coherent_iff (okAll hn hc hw h2) scheme).2 this
    exact ⟨_, _, _, (newVar_iff (unique_setName hu r) _ _ _).2 ⟨rfl, rfl, rfl, a, b, c⟩⟩

/-- C86: an accepted variable has exactly the properties that are written, each of them once; it is intrinsic exactly if no derived type is
written, and a constituent exactly if one of the properties of constituents has another value than the default. -/
theorem C86_values {name : Str} (hn : name.getLast? ≠ some '\n') {es : List (Str × Str)} (hc : ∀ e ∈ es, Clean e.2) {D : Dict} {i c : Bool}
    (h : parse fl scheme skip known reg name es = .var D i c) :
    Result fl name es D.get ∧ (D.map Prod.fst).Nodup ∧ (i = true ↔ ∀ e ∈ es, ¬ IsDerived e) ∧
      (c = true ↔ D.get "advected".toList = some (.flag true) ∨ D.get "constituent".toList = some (.flag true) ∨
        ∃ s, D.get "molar_mass".toList = some (.number s) ∧ fl s ≠ some (.fin 0)) := by
  obtain ⟨hl, d, reg', r, hu, hw, hreg, hr, h⟩ := parse_var hn hc h
  obtain ⟨rfl, rfl, rfl, -⟩ := (newVar_iff (unique_setName hu r) D i c).1 h
  have hok := okAll hn hc hw hr
  refine ⟨⟨d.get, r, hw, hr, by rw [final_get, setName_get]⟩, unique_final (unique_setName hu r), ?_, ?_⟩
  · have h1 : (ddtCase (setName r d)).2 = true ↔ (setName r d).get "ddt_type".toList = none := by
      unfold ddtCase
      cases (setName r d).get "ddt_type".toList <;> simp
    have h2 : (setName r d).get "ddt_type".toList = d.get "ddt_type".toList := by
      rw [setName_get]
      cases r with
      | none => rfl
      | some n =>
        unfold renamed
        simp only
        rw [if_neg (by decide)]
    rw [h1, h2]
    constructor
    · intro hnone e he hd
      have : ∀ l : List (Str × Str), (∃ e ∈ l, IsDerived e) → ∃ s, Last IsDerived l s := by
        intro l
        induction l using List.reverseRec with
        | nil => rintro ⟨e, he, -⟩; cases he
        | append_singleton l e ih =>
          rintro ⟨f, hf, hd⟩
          by_cases hde : IsDerived e
          · exact ⟨e.2, (last_snoc _ _ _ _).2 (.inl ⟨hde, rfl⟩)⟩
          · rcases List.mem_append.1 hf with hf | hf
            · obtain ⟨s, hs⟩ := ih ⟨f, hf, hd⟩
              exact ⟨s, (last_snoc _ _ _ _).2 (.inr ⟨hde, hs⟩)⟩
            · rw [List.mem_singleton.1 hf] at hd; exact absurd hd hde
      obtain ⟨s, hs⟩ := this es ⟨e, he, hd⟩
      rw [(hw "ddt_type".toList (.text s)).2 (.inl ⟨rfl, s, hs, rfl⟩)] at hnone
      cases hnone
    · intro hall
      cases hv : d.get "ddt_type".toList with
      | none => rfl
      | some v =>
        rcases (hw _ _).1 hv with ⟨-, s, hs, -⟩ | ⟨h, -⟩ | ⟨h, -⟩
        · obtain ⟨e, he, hd, -⟩ := last_mem hs
          exact absurd hd (hall e he)
        · exact absurd rfl h
        · exact absurd h (by decide)
  · generalize (ddtCase (setName r d)).1 = D at hok
    unfold isConstituent
    show (((D.get "advected".toList).any (truthy fl) || ((D.get "molar_mass".toList).any (truthy fl) || ((D.get "constituent".toList).any (truthy fl) || false)))) = true ↔ _
    have hf : ∀ k ∈ flagNames, ((D.get k).any (truthy fl) = true ↔ D.get k = some (.flag true)) := by
      intro k hk
      cases hv : D.get k with
      | none => simp
      | some v =>
        obtain ⟨b, rfl⟩ := ok_flag hk (hok _ _ hv)
        cases b <;> simp [truthy]
    have hm : ((D.get "molar_mass".toList).any (truthy fl) = true ↔ ∃ s, D.get "molar_mass".toList = some (.number s) ∧ fl s ≠ some (.fin 0)) := by
      cases hv : D.get "molar_mass".toList with
      | none => simp
      | some v =>
        have hvs : ∃ s, v = .number s := by
          have ho := hok _ _ hv
          generalize hk : "molar_mass".toList = k at ho
          cases ho with
          | @read _ s _ m _ =>
            cases m with
            | molarMass => exact ⟨_, rfl⟩
            | free h => rw [← hk] at h; exact absurd h (by decide)
            | flag h => rw [← hk] at h; exact absurd h (by decide)
            | _ => exact absurd hk (by decide)
          | _ => exact absurd hk (by decide)
        obtain ⟨s, rfl⟩ := hvs
        simp [truthy]
    rw [Bool.or_eq_true, Bool.or_eq_true, Bool.or_false, hf "advected".toList (by decide), hf "constituent".toList (by decide), hm, or_comm (b := D.get "constituent".toList = _)]

end Ccpp.VE
