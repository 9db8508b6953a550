import Verif.Spec.HostModel
/-!
# C67: the variables of a host model
-/
namespace Ccpp.HM

/-- The two dictionaries of a host. -/
abbrev Core := Dict × Dict

def cfind (d : Core) (s : Str) : Option Ref :=
  if s = constName then some (.var constVar)
  else match d.1.get s with
    | some r => some r
    | none => d.2.get s

def core (h : Host) : Core := (h.vars, h.comps)

def setCore (h : Host) (d : Core) : Host := { h with vars := d.1, comps := d.2 }

theorem find_core (h : Host) (s : Str) : h.find s = cfind (core h) s := rfl

theorem core_set (h : Host) (d : Core) : core (setCore h d) = d := rfl
theorem set_set (h : Host) (d e : Core) : setCore (setCore h d) e = setCore h e := rfl
theorem set_core (h : Host) : setCore h (core h) = h := rfl

def addRef (d : Core) (r : Ref) : Option Core :=
  if (cfind d r.leaf.std).isSome then none
  else match r with
    | .var _ => (d.1.add r).map fun x => (x, d.2)
    | .ddt _ _ => (d.2.add r).map fun x => (d.1, x)

def addRefs : Core → List Ref → Option Core
  | d, [] => some d
  | d, r :: rs => (addRef d r).bind fun d' => addRefs d' rs

theorem addRefs_append (d : Core) (a b : List Ref) : addRefs d (a ++ b) = (addRefs d a).bind fun d' => addRefs d' b := by
  induction a generalizing d with
  | nil => rfl
  | cons r a ih =>
    rw [List.cons_append, addRefs, addRefs]
    cases addRef d r with
    | none => rfl
    | some d' => exact ih d'

/-- The paths from the fields of a variable. -/
def subPaths (rec : List V → Option (List (List V))) (lib : Lib) (c : V) : Option (List (List V)) :=
  match c.ddt, fieldsOf lib c.type with
  | true, some sub => rec sub
  | _, _ => some []

/-- The paths, with a bound on the depth. -/
def pathsLoop (rec : List V → Option (List (List V))) (lib : Lib) : List V → Option (List (List V))
  | [] => some []
  | c :: rest =>
    (subPaths rec lib c).bind fun qs => (pathsLoop rec lib rest).map fun ps => qs.map (c :: ·) ++ [c] :: ps

def pathsN (lib : Lib) : Nat → List V → Option (List (List V))
  | 0 => fun _ => none
  | n + 1 => pathsLoop (pathsN lib n) lib

theorem pathsLoop_ne {rec : List V → Option (List (List V))} {lib : Lib} {fs : List V} {ps : List (List V)}
    (h : pathsLoop rec lib fs = some ps) : [] ∉ ps := by
  induction fs generalizing ps with
  | nil => injection h with h; subst h; simp
  | cons c rest ih =>
    rw [pathsLoop, Option.bind_eq_some_iff] at h
    obtain ⟨qs, h1, h2⟩ := h
    rw [Option.map_eq_some_iff] at h2
    obtain ⟨ps', h2, rfl⟩ := h2
    have := ih h2
    simp [this]

theorem pathsN_ne {lib : Lib} {n : Nat} {fs : List V} {ps : List (List V)} (h : pathsN lib n fs = some ps) : [] ∉ ps := by
  cases n with
  | zero => cases h
  | succ n => exact pathsLoop_ne h

theorem last_cons {c : V} {p : List V} (h : p ≠ []) : last (c :: p) = last p := by
  cases p with
  | nil => exact absurd rfl h
  | cons a p => rfl

def compRef (own : V) (p : List V) : Ref := .ddt own (.var (last p))

theorem compRef_map {own c : V} {qs : List (List V)} (h : [] ∉ qs) :
    (qs.map (c :: ·)).map (compRef own) = qs.map (compRef own) := by
  rw [List.map_map]
  apply List.map_congr_left
  intro q hq
  show compRef own (c :: q) = _
  unfold compRef
  rw [last_cons]
  intro hh
  subst hh
  exact h hq

theorem collectLoop_eq {lib : Lib} {rec : Host → Ref → List V → Option Host} {recp : List V → Option (List (List V))}
    (hne : ∀ fs ps, recp fs = some ps → [] ∉ ps)
    (hrec : ∀ h r fs, rec h r fs = (recp fs).bind fun ps => (addRefs (core h) (ps.map (compRef r.own))).map (setCore h))
    (h : Host) (r : Ref) (fs : List V) : collectLoop rec lib h r fs =
      (pathsLoop recp lib fs).bind fun ps => (addRefs (core h) (ps.map (compRef r.own))).map (setCore h) := by
  induction fs generalizing h with
  | nil => rw [collectLoop, pathsLoop]; rfl
  | cons c rest ih =>
    rw [collectLoop, pathsLoop]
    have step : ∀ qs : List (List V), [] ∉ qs →
        (((addRefs (core h) (qs.map (compRef r.own))).map (setCore h)).bind fun h1 =>
          if (h1.find c.std).isSome then none
          else (h1.comps.add (newVarDDT c r)).bind fun x => collectLoop rec lib { h1 with comps := x } r rest) =
        ((pathsLoop recp lib rest).map fun ps => qs.map (c :: ·) ++ [c] :: ps).bind
          fun ps => (addRefs (core h) (ps.map (compRef r.own))).map (setCore h) := by
      intro qs hq
      have he : ∀ ps : List (List V), (qs.map (c :: ·) ++ [c] :: ps).map (compRef r.own) =
          qs.map (compRef r.own) ++ compRef r.own [c] :: ps.map (compRef r.own) := by
        intro ps
        rw [List.map_append, compRef_map hq, List.map_cons]
      cases hps : pathsLoop recp lib rest with
      | none =>
        cases addRefs (core h) (qs.map (compRef r.own)) with
        | none => rfl
        | some d =>
          show (if _ then none else _) = none
          split
          · rfl
          · cases (setCore h d).comps.add (newVarDDT c r) with
            | none => rfl
            | some x =>
              show collectLoop rec lib _ r rest = none
              rw [ih, hps]
              rfl
      | some ps =>
        show _ = (addRefs (core h) ((qs.map (c :: ·) ++ [c] :: ps).map (compRef r.own))).map (setCore h)
        rw [he, addRefs_append]
        cases addRefs (core h) (qs.map (compRef r.own)) with
        | none => rfl
        | some d =>
          show (if ((setCore h d).find c.std).isSome then none else _) = (addRefs d (compRef r.own [c] :: _)).map (setCore h)
          rw [addRefs, find_core, core_set]
          show _ = Option.map (setCore h) (Option.bind (if (cfind d c.std).isSome then none
            else (d.2.add (compRef r.own [c])).map fun x => (d.1, x)) _)
          split
          · rfl
          · show ((d.2.add (compRef r.own [c])).bind fun x => collectLoop rec lib { setCore h d with comps := x } r rest) = _
            cases d.2.add (compRef r.own [c]) with
            | none => rfl
            | some x =>
              show collectLoop rec lib { setCore h d with comps := x } r rest = (addRefs (d.1, x) _).map (setCore h)
              rw [ih, hps]
              rfl
    unfold subPaths
    cases hd : c.ddt with
    | false =>
      simp only
      exact step [] (by simp)
    | true =>
      cases hf : fieldsOf lib c.type with
      | none => simp only; exact step [] (by simp)
      | some sub =>
        simp only
        rw [hrec]
        cases hq : recp sub with
        | none => rfl
        | some qs => exact step qs (hne _ _ hq)

theorem collect_eq (lib : Lib) (n : Nat) (h : Host) (r : Ref) (fs : List V) : collect lib n h r fs =
    (pathsN lib n fs).bind fun ps => (addRefs (core h) (ps.map (compRef r.own))).map (setCore h) := by
  induction n generalizing h r fs with
  | zero => rfl
  | succ n ih => exact collectLoop_eq (fun _ _ hh => pathsN_ne hh) ih h r fs

/-! ## Headers -/

/-- What is added for a variable. -/
def refsOf (lib : Lib) (n : Nat) (v : V) : Option (List Ref) :=
  if v.ddt then (fieldsOf lib v.type).bind fun fs => (pathsN lib n fs).map fun ps => .var v :: ps.map (compRef v)
  else some [.var v]

def refsAll (lib : Lib) (n : Nat) : List V → Option (List Ref)
  | [] => some []
  | v :: vs => (refsOf lib n v).bind fun a => (refsAll lib n vs).map (a ++ ·)

/-- The modules after a header. -/
def modulesOf (m : Option Str) : List (Str × Str) → List V → List (Str × Str)
  | l, [] => l
  | l, v :: vs => modulesOf m (noteModule m l v.loc) vs

theorem add_eq (h : Host) (v : V) : h.add v = (addRef (core h) (.var v)).map (setCore h) := by
  unfold Host.add addRef
  rw [find_core]
  show (if (cfind (core h) v.std).isSome then none else _) = Option.map (setCore h) (if (cfind (core h) v.std).isSome then none else _)
  split
  · rfl
  · show Option.map _ (h.vars.add (.var v)) = Option.map (setCore h) (Option.map _ (h.vars.add (.var v)))
    cases h.vars.add (.var v) <;> rfl

theorem addComps_eq (lib : Lib) (n : Nat) (h : Host) (v : V) (d : Core) :
    ((addRef d (.var v)).bind fun d' => Host.addComps lib n (setCore h d') v) =
      (refsOf lib n v).bind fun rs => (addRefs d rs).map (setCore h) := by
  unfold Host.addComps refsOf
  cases hd : v.ddt with
  | false =>
    show ((addRef d (.var v)).bind fun d' => some (setCore h d')) = (addRefs d [.var v]).map (setCore h)
    rw [addRefs]
    cases addRef d (.var v) <;> rfl
  | true =>
    simp only [if_true]
    cases fieldsOf lib v.type with
    | none => cases addRef d (.var v) <;> rfl
    | some fs =>
      show ((addRef d (.var v)).bind fun d' => collect lib n (setCore h d') (.var v) fs) =
        ((pathsN lib n fs).map fun ps => Ref.var v :: ps.map (compRef v)).bind fun rs => (addRefs d rs).map (setCore h)
      cases hp : pathsN lib n fs with
      | none =>
        cases addRef d (.var v) with
        | none => rfl
        | some d' =>
          show collect lib n (setCore h d') (.var v) fs = none
          rw [collect_eq, hp]
          rfl
      | some ps =>
        show _ = (addRefs d (.var v :: ps.map (compRef v))).map (setCore h)
        rw [addRefs]
        cases addRef d (.var v) with
        | none => rfl
        | some d' =>
          show collect lib n (setCore h d') (.var v) fs = (addRefs d' _).map (setCore h)
          rw [collect_eq, hp, Option.bind_some, core_set]
          rfl

theorem addVars_eq (lib : Lib) (n : Nat) (m : Option Str) (h : Host) (vs : List V) : Host.addVars lib n m h vs =
    (refsAll lib n vs).bind fun rs => (addRefs (core h) rs).map
      fun d => { setCore h d with modules := modulesOf m h.modules vs } := by
  induction vs generalizing h with
  | nil => rfl
  | cons v vs ih =>
    rw [Host.addVars, refsAll, add_eq]
    have key : (((addRef (core h) (.var v)).map (setCore h)).bind fun h1 =>
        Host.addComps lib n { h1 with modules := noteModule m h1.modules v.loc } v) =
        (refsOf lib n v).bind fun rs => (addRefs (core h) rs).map
          (setCore { h with modules := noteModule m h.modules v.loc }) := by
      rw [← addComps_eq]
      cases addRef (core h) (.var v) with
      | none => rfl
      | some d => rfl
    rw [← Option.bind_assoc, key]
    cases refsOf lib n v with
    | none => rfl
    | some a =>
      show Option.bind (Option.map _ (addRefs (core h) a)) _ = Option.bind (Option.map _ (refsAll lib n vs)) _
      cases hr : refsAll lib n vs with
      | none =>
        cases addRefs (core h) a with
        | none => rfl
        | some d =>
          show Host.addVars lib n m _ vs = none
          rw [ih, hr]
          rfl
      | some b =>
        show _ = Option.map _ (addRefs (core h) (a ++ b))
        rw [addRefs_append]
        cases addRefs (core h) a with
        | none => rfl
        | some d =>
          show Host.addVars lib n m _ vs = Option.map _ (addRefs d b)
          rw [ih, hr]
          rfl

end Ccpp.HM
