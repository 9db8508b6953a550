import Verif.Props.VarEntryVar
import Verif.Props.FortranType
import Verif.Props.RefCheckEx
/-!
# Proofs for C86: the properties of a variable fit together
-/
namespace Ccpp.VE

open MF (Val)

/-- The values that the first reading leaves in the dictionary. -/
inductive OkVal (fl : Str → Option Num) : Str → Val → Prop
  | read {k s v} : Means fl k s v → Clean s → OkVal fl k v
  | name {s} : RefOk s → s.getLast? ≠ some '\n' → OkVal fl "local_name".toList (.text s)
  | kind {s} : OkVal fl "kind".toList (.text s)
  | type {s} : OkVal fl "type".toList (.text s)
  | units : OkVal fl "units".toList (.text [])

variable {fl : Str → Option Num} {reg : List Str}

theorem means_flag {k s : Str} {v : Val} (hk : k ∈ flagNames) (h : Means fl k s v) : ∃ b, v = .flag b := by
  have hne : ∀ j ∈ ["long_name".toList, "kind".toList, "active".toList, "default_value".toList, "persistence".toList, "intent".toList,
      "local_name".toList, "standard_name".toList, "units".toList, "type".toList, "dimensions".toList, "diagnostic_name".toList,
      "diagnostic_name_fixed".toList, "molar_mass".toList], j ∉ flagNames := by decide
  cases h with
  | flag => exact ⟨_, rfl⟩
  | free h =>
    refine absurd hk (hne k ?_)
    have : ∀ j ∈ ["long_name".toList, "kind".toList, "active".toList, "default_value".toList], j ∈ ["long_name".toList, "kind".toList,
      "active".toList, "default_value".toList, "persistence".toList, "intent".toList,
      "local_name".toList, "standard_name".toList, "units".toList, "type".toList, "dimensions".toList, "diagnostic_name".toList,
      "diagnostic_name_fixed".toList, "molar_mass".toList] := by decide
    exact this k h
  | _ => exact absurd hk (hne _ (by decide))

theorem ok_flag {k : Str} {v : Val} (hk : k ∈ flagNames) (h : OkVal fl k v) : ∃ b, v = .flag b := by
  cases h with
  | read h => exact means_flag hk h
  | _ => exact absurd hk (by decide)

theorem ok_intent {v : Val} (h : OkVal fl "intent".toList v) : v = .text "in".toList ∨ v = .text "out".toList ∨ v = .text "inout".toList := by
  generalize hk : "intent".toList = k at h
  cases h with
  | @read _ s _ h _ =>
    cases h with
    | free h => rw [← hk] at h; exact absurd h (by decide)
    | flag h => rw [← hk] at h; exact absurd h (by decide)
    | intent h => rcases h with rfl | rfl | rfl <;> simp
    | _ => exact absurd hk (by decide)
  | _ => exact absurd hk (by decide)

/-- The dictionary contains only such values. -/
def OkAll (fl : Str → Option Num) (D : Dict) : Prop := ∀ k v, D.get k = some v → OkVal fl k v

theorem mismatch_iff {D : Dict} (h : OkAll fl D) : protectedMismatch fl D = false ↔
    (D.get "protected".toList = some (.flag true) → D.get "intent".toList = none ∨ D.get "intent".toList = some (.text "in".toList)) := by
  unfold protectedMismatch
  cases hi : D.get "intent".toList with
  | none => simp
  | some i =>
    cases hp : D.get "protected".toList with
    | none => rcases ok_intent (h _ _ hi) with rfl | rfl | rfl <;> simp
    | some p =>
      obtain ⟨b, rfl⟩ := ok_flag (by decide) (h _ _ hp)
      have h1 : (lower "in".toList != "in".toList) = false := by decide
      have h2 : (lower "out".toList != "in".toList) = true := by decide
      have h3 : (lower "inout".toList != "in".toList) = true := by decide
      have n1 : Val.text "out".toList ≠ Val.text "in".toList := by decide
      have n2 : Val.text "inout".toList ≠ Val.text "in".toList := by decide
      rcases ok_intent (h _ _ hi) with rfl | rfl | rfl
      · simp only [h1, Bool.false_and, or_true, implies_true]
      · simp only [h2, Bool.true_and, truthy, Option.some.injEq, Val.flag.injEq, n1, reduceCtorEq, or_self]
        cases b <;> simp
      · simp only [h3, Bool.true_and, truthy, Option.some.injEq, Val.flag.injEq, n2, reduceCtorEq, or_self]
        cases b <;> simp

theorem nameProps_prot {D : Dict} (h : OkAll fl D) : (nameProps fl (some D)).prot = true ↔ D.get "protected".toList = some (.flag true) := by
  show (D.get "protected".toList).any (truthy fl) = true ↔ _
  cases hp : D.get "protected".toList with
  | none => simp
  | some p =>
    obtain ⟨b, rfl⟩ := ok_flag (by decide) (h _ _ hp)
    cases b <;> simp [truthy]

theorem nameProps_type (D : Dict) : (nameProps fl (some D)).type = txt D.get "type".toList := rfl
theorem nameProps_kind (D : Dict) : (nameProps fl (some D)).kind = txt D.get "kind".toList := rfl

theorem local_pass {D : Dict} (h : OkAll fl D) {p : VProp} (h1 : p.ptype = .str) (h2 : p.values = none) (h3 : p.check = .localName)
    {s : Str} (hs : s = [] ∨ RefOk s) (hc : s.getLast? ≠ some '\n') :
    (∃ w, validValue fl reg p (.text s) (some D) true = .val w) ↔
      (s ≠ [] → D.get "protected".toList = some (.flag true) → txt D.get "type".toList ≠ [] →
        ∃ b, Lit.literal s (txt D.get "type".toList) (txt D.get "kind".toList) = .ok b) := by
  rw [vv_checked fl reg p (some D) true h1 h2 (by rw [h3]; decide), h3]
  by_cases hn : s = []
  · subst hn; simp
  · rw [if_neg hn]
    show (∃ w, ofOut (RC.localName s (nameProps fl (some D)) true 0) = .val w) ↔ _
    simp only [ofOut_val, RC.C85_local_name, nameProps_type, nameProps_kind, nameProps_prot h]
    have hr := (ref_iff hc true).2 ⟨rfl, hs.resolve_left hn⟩
    simp only [hr, true_and]
    constructor
    · rintro ⟨w, t, ⟨-, h⟩, -⟩ - hp ht
      rcases h with ⟨-, -, h⟩ | h
      · exact ⟨true, h⟩
      · exact (h ⟨hp, ht⟩).elim (fun h => ⟨true, h⟩) fun h => ⟨false, h⟩
    · intro h'
      refine ⟨_, s, ⟨rfl, .inr ?_⟩, rfl⟩
      rintro ⟨hp, ht⟩
      obtain ⟨b, hb⟩ := h' hn hp ht
      cases b
      · exact .inr hb
      · exact .inl hb

theorem default_pass {D : Dict} {p : VProp} (h1 : p.ptype = .str) (h2 : p.values = none) (h3 : p.check = .default) (s : Str)
    {t : Str} (ht : D.get "type".toList = some (.text t)) :
    (∃ w, validValue fl reg p (.text s) (some D) true = .val w) ↔
      (s ≠ [] → Lit.literal s (strip (lower (txt D.get "type".toList))) (strip (lower (txt D.get "kind".toList))) = .ok true) := by
  rw [vv_checked fl reg p (some D) true h1 h2 (by rw [h3]; decide), h3]
  by_cases hn : s = []
  · subst hn; simp
  · rw [if_neg hn]
    show (∃ w, ofLit (Lit.defaultValue s (some ⟨textOf D "type".toList, textOf D "kind".toList, true⟩) true) = .val w) ↔ _
    have hl : ∀ o w, ofLit o = .val w ↔ ∃ x, o = .ok (some x) ∧ w = .text x := by
      intro o w
      unfold ofLit
      split <;> simp [eq_comm]
    have ht' : textOf D "type".toList = some t := by unfold textOf; rw [ht]
    have htx : txt D.get "type".toList = t := by unfold txt; rw [ht]
    have hk : (textOf D "kind".toList).getD [] = txt D.get "kind".toList := by
      unfold textOf txt
      cases D.get "kind".toList with
      | none => rfl
      | some v => cases v <;> rfl
    simp only [hl]
    have := fun w => Lit.C84_default_iff s ⟨textOf D "type".toList, textOf D "kind".toList, true⟩ ht' true w
    simp only [this, hk, htx]
    constructor
    · rintro ⟨w, x, ⟨-, h⟩, -⟩ -; exact h
    · intro h; exact ⟨_, s, ⟨rfl, h hn⟩, rfl⟩

theorem dims_pass {D : Dict} {p : VProp} (h1 : p.ptype = .list) (h3 : p.check = .dimensions) (l : List Str) :
    (∃ w, validValue fl reg p (.list l) (some D) true = .val w) ↔ ∀ d ∈ l, DimOk d := by
  unfold validValue convert
  simp only [h1, h3]
  by_cases hn : l = []
  · subst hn; simp [truthy]
  · have ht : (truthy fl (.list l) && Check.dimensions != Check.none) = true := by simp [truthy, hn]
    rw [if_pos ht]
    simp only [runCheck]
    by_cases h : ∀ d ∈ l, DimOk d
    · rw [(dimOk_iff l).2 h]; simpa using h
    · rw [dim_raise h]; simpa using h

theorem mass_pass {D : Dict} {p : VProp} (h1 : p.ptype = .float) (h3 : p.check = .molarMass) {s : Str} {x : Num} (hx : fl s = some x) (hm : MassOk x) :
    ∃ w, validValue fl reg p (.number s) (some D) true = .val w := by
  unfold validValue convert
  simp only [h1, h3]
  split
  · simp only [runCheck, hx]
    rw [if_neg (by rw [(mass_iff x).2 hm]; decide)]
    exact ⟨_, rfl⟩
  · exact ⟨_, rfl⟩

theorem lower_name {s : Str} (h : Chk.IsName s) : Chk.IsName (s.map Char.toLower) := by
  obtain ⟨c, cs, rfl, h1, h2⟩ := h
  refine ⟨c.toLower, cs.map Char.toLower, rfl, by rw [FDecl.toLower_alpha]; exact h1, ?_⟩
  intro x hx
  obtain ⟨y, hy, rfl⟩ := List.mem_map.1 hx
  rcases h2 y hy with h | rfl
  · left
    unfold Char.isAlphanum at h ⊢
    rw [FDecl.toLower_alpha]
    rcases Bool.or_eq_true _ _ ▸ h with h | h
    · simp [h]
    · have : y.toLower = y := by
        unfold Char.toLower
        rw [dif_neg]
        intro hh
        unfold Char.isDigit at h
        simp only [Bool.and_eq_true, decide_eq_true_eq] at h
        have a := h.2
        have b := hh.1
        simp only [UInt32.le_iff_toNat_le] at a b
        simp at a b
        omega
      rw [this, h]; simp
  · right; decide

theorem lower_clean {s : Str} (h : Chk.IsName s) (hc : Clean s) : Clean (s.map Char.toLower) := by
  constructor
  · exact fun h' => absurd h' (by
      have := lower_name h
      rw [← fid_clean (s := s.map Char.toLower)] at this
      · intro hl
        obtain ⟨t, ht⟩ := List.getLast?_eq_some_iff.1 hl
        have hm : '\n' ∈ s.map Char.toLower := by rw [ht]; simp
        exact RC.name_ne_newline (lower_name h) hm
      · intro hl
        obtain ⟨t, ht⟩ := List.getLast?_eq_some_iff.1 hl
        have hm : '\n' ∈ s.map Char.toLower := by rw [ht]; simp
        exact RC.name_ne_newline (lower_name h) hm)
  · intro c hm
    obtain ⟨d, hd, rfl⟩ := List.mem_map.1 hm
    have := hc.2 d hd
    unfold Char.toLower
    split
    · next hh =>
      have a := hh.2
      simp only [UInt32.le_iff_toNat_le, UInt32.lt_iff_toNat_lt] at a this ⊢
      simp at a this ⊢
      omega
    · exact this

theorem ok_text {D : Dict} (h : OkAll fl D) {k : Str} (hk : k ∈ ["type".toList, "local_name".toList, "default_value".toList, "diagnostic_name".toList,
    "diagnostic_name_fixed".toList]) (hn : D.get k ≠ none) : D.get k = some (.text (txt D.get k)) := by
  cases hv : D.get k with
  | none => exact absurd hv hn
  | some v =>
    have ht : ∃ s, v = .text s := by
      have := h k v hv
      cases this with
      | @read _ s _ m _ =>
        cases m with
        | flag hf => simp only [List.mem_cons, List.not_mem_nil, or_false] at hk; rcases hk with rfl | rfl | rfl | rfl | rfl <;> exact absurd hf (by decide)
        | scalar => exact absurd hk (by decide)
        | array => exact absurd hk (by decide)
        | molarMass => exact absurd hk (by decide)
        | _ => exact ⟨_, rfl⟩
      | _ => exact ⟨_, rfl⟩
    obtain ⟨s, rfl⟩ := ht
    unfold txt; rw [hv]

theorem pass_of {k : Str} {p : VProp} (hp : p ∈ allProps) (hn : p.name = k) (D : Dict) (v : Val) :
    Pass fl reg D k v ↔ ∃ w, validValue fl reg p v (some D) true = .val w := by
  unfold Pass
  subst hn
  constructor
  · rintro ⟨q, hq, h⟩
    rw [getProp_of hp] at hq; cases hq; exact h
  · intro h; exact ⟨p, getProp_of hp, h⟩

theorem diag_ex (D : Dict) : (∀ q x, diagProps (some D) = some q → q.fixed = some x → x = []) ↔ txt D.get "diagnostic_name_fixed".toList = [] := by
  show (∀ q x, some (RC.DiagProps.mk (textOf D "diagnostic_name".toList) (textOf D "diagnostic_name_fixed".toList)) = some q → q.fixed = some x → x = []) ↔ _
  constructor
  · intro h
    have := fun x => h _ x rfl
    simp only at this
    unfold txt
    unfold textOf at this
    cases hv : D.get "diagnostic_name_fixed".toList with
    | none => rfl
    | some v =>
      rw [hv] at this
      cases v with
      | text s => exact this s rfl
      | _ => rfl
  · rintro h q x hq hx
    cases hq
    simp only at hx
    unfold txt at h
    unfold textOf at hx
    cases hv : D.get "diagnostic_name_fixed".toList with
    | none => rw [hv] at hx; cases hx
    | some v =>
      rw [hv] at hx h
      cases v with
      | text s => cases hx; exact h
      | _ => cases hx

theorem fixed_ex (D : Dict) : (∀ q x, diagProps (some D) = some q → q.name = some x → x = []) ↔ txt D.get "diagnostic_name".toList = [] := by
  show (∀ q x, some (RC.DiagProps.mk (textOf D "diagnostic_name".toList) (textOf D "diagnostic_name_fixed".toList)) = some q → q.name = some x → x = []) ↔ _
  constructor
  · intro h
    have := fun x => h _ x rfl
    simp only at this
    unfold txt
    unfold textOf at this
    cases hv : D.get "diagnostic_name".toList with
    | none => rfl
    | some v =>
      rw [hv] at this
      cases v with
      | text s => exact this s rfl
      | _ => rfl
  · rintro h q x hq hx
    cases hq
    simp only at hx
    unfold txt at h
    unfold textOf at hx
    cases hv : D.get "diagnostic_name".toList with
    | none => rw [hv] at hx; cases hx
    | some v =>
      rw [hv] at hx h
      cases v with
      | text s => cases hx; exact h
      | _ => cases hx

theorem txt_of {D : Str → Option Val} {k s : Str} (h : D k = some (.text s)) : txt D k = s := by unfold txt; rw [h]

theorem txt_ne {D : Str → Option Val} {k : Str} (h : txt D k ≠ []) : D k = some (.text (txt D k)) := by
  unfold txt at *
  cases hv : D k with
  | none => rw [hv] at h; exact absurd rfl h
  | some v =>
    rw [hv] at h
    cases v with
    | text s => rfl
    | _ => exact absurd rfl h

theorem ok_local {s : Str} (ho : OkVal fl "local_name".toList (.text s)) : (s = [] ∨ RefOk s) ∧ s.getLast? ≠ some '\n' := by
  generalize hk : "local_name".toList = k at ho
  generalize hx : Val.text s = x at ho
  cases ho with
  | @read _ s _ m hc =>
    cases m with
    | localName hs => cases hx; exact ⟨hs, hc.1⟩
    | free h => rw [← hk] at h; exact absurd h (by decide)
    | flag h => cases hx
    | _ => exact absurd hk (by decide)
  | name hr hc => cases hx; exact ⟨.inr hr, hc⟩
  | _ => exact absurd hk (by decide)

/-- The constructor accepts the properties exactly if they fit together. -/
theorem coherent_iff {D : Dict} (h : OkAll fl D) (scheme : Bool) :
    ((∀ k ∈ needed scheme, D.get k ≠ none) ∧ protectedMismatch fl D = false ∧ ∀ k v, D.get k = some v → Pass fl reg D k v) ↔
      Coherent scheme (· ∈ reg) D.get := by
  rw [mismatch_iff h]
  constructor
  · rintro ⟨h1, h2, h3⟩
    have htype := ok_text h (k := "type".toList) (by decide) (h1 _ (by unfold needed; exact List.mem_append_left _ (by decide)))
    refine ⟨h1, h2, ?_, ?_, ?_, ?_, ?_⟩
    · intro l hl
      have := h3 _ _ hl
      rw [pass_of (p := { name := "dimensions".toList, ptype := .list, check := .dimensions, optional := false }) (by decide) rfl] at this
      exact (dims_pass rfl rfl l).1 this
    · have := h3 _ _ htype
      rw [pass_of (p := { name := "type".toList, ptype := .str, check := .type, optional := false }) (by decide) rfl] at this
      obtain ⟨w, hw⟩ := this
      exact ((vv_type fl reg rfl rfl rfl _ true _ w).1 hw).2
    · intro hn
      have hg := txt_ne hn
      have := h3 _ _ hg
      rw [pass_of (p := { name := "local_name".toList, ptype := .str, check := .localName, optional := false }) (by decide) rfl] at this
      have ho := ok_local (h _ _ hg)
      exact (local_pass h rfl rfl rfl ho.1 ho.2).1 this hn
    · intro hn
      have := h3 _ _ (txt_ne hn)
      rw [pass_of (p := { name := "default_value".toList, ptype := .str, check := .default }) (by decide) rfl] at this
      exact (default_pass rfl rfl rfl _ htype).1 this hn
    · by_contra hn
      rw [not_or] at hn
      have := h3 _ _ (txt_ne hn.2)
      rw [pass_of (p := { name := "diagnostic_name_fixed".toList, ptype := .str, check := .diagnosticFixed }) (by decide) rfl] at this
      obtain ⟨w, hw⟩ := this
      rw [vv_checked fl reg _ (some D) true rfl rfl (by decide), if_neg hn.2] at hw
      obtain ⟨t, ht, -⟩ := ofOut_val.1 (show ofOut (RC.diagFixed _ (diagProps (some D)) true) = _ from hw)
      exact hn.1 ((fixed_ex D).1 ((RC.C85_diagnostic_fixed _ _ _ _).1 ht).2.2)
  · intro hc
    have htype := ok_text h (k := "type".toList) (by decide) (hc.needed _ (by unfold needed; exact List.mem_append_left _ (by decide)))
    refine ⟨hc.needed, hc.intent, ?_⟩
    intro k v hv
    have ho := h k v hv
    cases ho with
    | kind => exact (pass_of (p := { name := "kind".toList, ptype := .str }) (by decide) rfl D _).2 ⟨_, vv_free fl reg _ _ true rfl rfl rfl _⟩
    | units =>
      exact (pass_of (p := { name := "units".toList, ptype := .str, check := .units, optional := false }) (by decide) rfl D _).2
          ⟨_, (vv_units fl reg rfl rfl rfl _ true [] _).2 ⟨rfl, .inl rfl⟩⟩
    | @type s =>
      have := hc.type
      rw [txt_of hv] at this
      exact (pass_of (p := { name := "type".toList, ptype := .str, check := .type, optional := false }) (by decide) rfl D _).2
        ⟨_, (vv_type fl reg rfl rfl rfl _ true s _).2 ⟨rfl, this⟩⟩
    | @name s hr hl =>
      have := hc.name
      rw [txt_of hv] at this
      exact (pass_of (p := { name := "local_name".toList, ptype := .str, check := .localName, optional := false }) (by decide) rfl D _).2
        ((local_pass h rfl rfl rfl (.inr hr) hl).2 this)
    | @read _ s _ m hcl =>
      cases m with
      | free hk =>
        simp only [List.mem_cons, List.not_mem_nil, or_false] at hk
        rcases hk with rfl | rfl | rfl | rfl
        · exact (pass_of (p := { name := "long_name".toList, ptype := .str }) (by decide) rfl D _).2 ⟨_, vv_free fl reg _ _ true rfl rfl rfl _⟩
        · exact (pass_of (p := { name := "kind".toList, ptype := .str }) (by decide) rfl D _).2 ⟨_, vv_free fl reg _ _ true rfl rfl rfl _⟩
        · exact (pass_of (p := { name := "active".toList, ptype := .str }) (by decide) rfl D _).2 ⟨_, vv_free fl reg _ _ true rfl rfl rfl _⟩
        · have := hc.default
          rw [txt_of hv] at this
          exact (pass_of (p := { name := "default_value".toList, ptype := .str, check := .default }) (by decide) rfl D _).2
            ((default_pass rfl rfl rfl s htype).2 this)
      | persistence hs =>
        refine (pass_of (p := { name := "persistence".toList, ptype := .str, values := some ["timestep".toList, "run".toList] }) (by decide) rfl D _).2
          ⟨.text s, ?_⟩
        rw [vv_values fl reg _ _ true rfl rfl rfl, if_pos]
        simpa only [List.mem_cons, List.not_mem_nil, or_false] using hs
      | intent hs =>
        refine (pass_of (p := { name := "intent".toList, ptype := .str, values := some ["in".toList, "out".toList, "inout".toList], optional := false })
          (by decide) rfl D _).2 ⟨.text s, ?_⟩
        rw [vv_values fl reg _ _ true rfl rfl rfl, if_pos]
        simpa only [List.mem_cons, List.not_mem_nil, or_false] using hs
      | @flag _ _ b hk hb =>
        have hf : ∀ k ∈ flagNames, ({ name := k, ptype := .bool } : VProp) ∈ allProps := by decide +kernel
        exact (pass_of (p := { name := k, ptype := .bool }) (hf k hk) rfl D _).2 ⟨_, vv_flag fl reg _ _ true rfl rfl b⟩
      | localName hs =>
        have := hc.name
        rw [txt_of hv] at this
        exact (pass_of (p := { name := "local_name".toList, ptype := .str, check := .localName, optional := false }) (by decide) rfl D _).2
          ((local_pass h rfl rfl rfl hs hcl.1).2 this)
      | standardName hs =>
        refine (pass_of (p := { name := "standard_name".toList, ptype := .str, check := .standardName, optional := false }) (by decide) rfl D _).2 ?_
        rcases hs with rfl | hs
        · exact ⟨_, (vv_standard fl reg rfl rfl rfl _ true hcl _).2 ⟨rfl, .inl rfl⟩⟩
        · exact ⟨_, (vv_standard fl reg rfl rfl rfl _ true (lower_clean hs hcl) _).2 ⟨rfl, .inr (lower_name hs)⟩⟩
      | units hs =>
        exact (pass_of (p := { name := "units".toList, ptype := .str, check := .units, optional := false }) (by decide) rfl D _).2
          ⟨_, (vv_units fl reg rfl rfl rfl _ true s _).2 ⟨rfl, hs⟩⟩
      | type hs =>
        exact (pass_of (p := { name := "type".toList, ptype := .str, check := .type, optional := false }) (by decide) rfl D _).2
          ⟨_, (vv_type fl reg rfl rfl rfl _ true s _).2 ⟨rfl, .inr (.inl hs)⟩⟩
      | scalar =>
        exact (pass_of (p := { name := "dimensions".toList, ptype := .list, check := .dimensions, optional := false }) (by decide) rfl D _).2
          ((dims_pass rfl rfl []).2 (by simp))
      | array =>
        exact (pass_of (p := { name := "dimensions".toList, ptype := .list, check := .dimensions, optional := false }) (by decide) rfl D _).2
          ((dims_pass rfl rfl _).2 (hc.dims _ hv))
      | diagnostic hs =>
        refine (pass_of (p := { name := "diagnostic_name".toList, ptype := .str, check := .diagnostic }) (by decide) rfl D _).2
          ⟨_, (vv_diag fl reg rfl rfl rfl _ true hcl _).2 ⟨rfl, hs, ?_⟩⟩
        have := hc.diagnostic
        rw [txt_of hv] at this
        exact this.imp_right (diag_ex D).2
      | diagnosticFixed hs =>
        refine (pass_of (p := { name := "diagnostic_name_fixed".toList, ptype := .str, check := .diagnosticFixed }) (by decide) rfl D _).2
          ⟨_, (vv_fixed fl reg rfl rfl rfl _ true hcl _).2 ⟨rfl, ?_⟩⟩
        have := hc.diagnostic
        rw [txt_of hv] at this
        by_cases hn : s = []
        · exact .inl hn
        · exact .inr ⟨hs.resolve_left hn, (fixed_ex D).2 (this.resolve_right hn)⟩
      | molarMass h1 h2 =>
        exact (pass_of (p := { name := "molar_mass".toList, ptype := .float, check := .molarMass }) (by decide) rfl D _).2 (mass_pass rfl rfl h1 h2)

end Ccpp.VE
