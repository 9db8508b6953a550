import Verif.Props.HostModelBuild
import Verif.Props.FortranType
import Verif.Props.Checkers
/-!
# C67: references to variables and components
-/
namespace Ccpp.HM

theorem join_eq (sep : Str) (l : List Str) : join sep l = joined sep l := by
  induction l with
  | nil => rfl
  | cons x l ih =>
    cases l with
    | nil => rfl
    | cons y l => rw [join, joined, ih]

theorem splitOn_joined (c : Char) (ts : List Str) (hne : ts ≠ []) (h : ∀ t ∈ ts, c ∉ t) :
    Chk.splitOn c (joined [c] ts) = ts := by
  induction ts with
  | nil => exact absurd rfl hne
  | cons t ts ih =>
    cases ts with
    | nil => exact Chk.splitOn_item c t (h t (List.mem_cons_self ..))
    | cons u ts =>
      rw [joined, List.append_assoc]
      show Chk.splitOn c (t ++ c :: joined [c] (u :: ts)) = _
      rw [Chk.splitOn_append c t _ (h t (List.mem_cons_self ..)), ih (by simp) (fun x hx => h x (List.mem_cons_of_mem _ hx))]

theorem allSome_map {α : Type} {l : List α} {f : α → Option Str} {g : α → Str} (h : ∀ x ∈ l, f x = some (g x)) :
    allSome (l.map f) = some (l.map g) := by
  induction l with
  | nil => rfl
  | cons x l ih =>
    rw [List.map_cons, h x (List.mem_cons_self ..), allSome, ih fun y hy => h y (List.mem_cons_of_mem _ hy)]
    rfl

theorem takeWhile_paren {a b : Str} (h : '(' ∉ a) : (a ++ '(' :: b).takeWhile (· != '(') = a ∧
    (a ++ '(' :: b).dropWhile (· != '(') = '(' :: b := by
  induction a with
  | nil => exact ⟨rfl, rfl⟩
  | cons c a ih =>
    have hc : (c != '(') = true := by simp only [bne_iff_ne, ne_eq]; rintro rfl; exact h (by simp)
    have := ih fun hm => h (List.mem_cons_of_mem _ hm)
    rw [List.cons_append, List.takeWhile_cons, List.dropWhile_cons, hc, if_pos rfl, if_pos rfl, this.1, this.2]
    exact ⟨rfl, rfl⟩

theorem dropWhile_plain {a : Str} (h : '(' ∉ a) : a.dropWhile (· != '(') = [] := by
  induction a with
  | nil => rfl
  | cons c a ih =>
    have hc : (c != '(') = true := by simp only [bne_iff_ne, ne_eq]; rintro rfl; exact h (by simp)
    rw [List.dropWhile_cons, if_pos hc]
    exact ih fun hm => h (List.mem_cons_of_mem _ hm)

theorem indices_plain {loc : Str} (h : '(' ∉ loc) : indices loc = none := by
  unfold indices
  rw [dropWhile_plain h]
  split
  · rename_i h2; cases h2
  · rfl

theorem indices_array {name inner : Str} (hn : name ≠ []) (hp : '(' ∉ name) (hs : strip name = name) :
    indices (name ++ '(' :: (inner ++ [')'])) = some (name, (Chk.splitOn ',' inner).map strip) := by
  unfold indices
  rw [(takeWhile_paren hp).1, (takeWhile_paren hp).2]
  cases name with
  | nil => exact absurd rfl hn
  | cons c cs =>
    simp only
    rw [hs]
    have : rstrip (inner ++ [')']) = inner ++ [')'] := by
      apply FDecl.rstrip_tight
      intro c hc
      rw [List.getLast?_concat] at hc
      injection hc with hc
      subst hc
      decide
    rw [this, List.dropLast_concat]

/-- One item of a dimension. -/
def itemText (find : Str → Option Ref) (n : Nat) (item : Str) : Option Str :=
  if item = [] then some []
  else match find item with
    | some r => callString find n r
    | none => if Chk.isPyInt item then some item else none

theorem callString_array {find : Str → Option Ref} {n : Nat} {v : V} {name : Str} {dims : List Str}
    (h : indices v.loc = some (name, dims)) : callString find (n + 1) (.var v) =
      (allSome (dims.map fun d => (allSome ((Chk.splitOn ':' d).map (itemText find n))).map (join [':']))).map fun l =>
        name ++ '(' :: join [',', ' '] l ++ [')'] := by
  rw [callString, h]
  rfl

theorem callString_plain {find : Str → Option Ref} {n : Nat} {v : V} (h : '(' ∉ v.loc) :
    callString find (n + 1) (.var v) = some v.loc := by
  rw [callString, indices_plain h]

/-- The text is generated for all sufficiently large bounds. -/
def Gen (find : Str → Option Ref) (r : Ref) (t : Str) : Prop := ∃ n, ∀ m, n ≤ m → callString find m r = some t

theorem gen_ddt {find : Str → Option Ref} {own : V} {f : Ref} {t : Str} (h : Gen find f t) :
    Gen find (.ddt own f) (own.loc ++ '%' :: t) := by
  obtain ⟨n, hn⟩ := h
  refine ⟨n + 1, fun m hm => ?_⟩
  cases m with
  | zero => omega
  | succ m =>
    rw [callString, hn m (by omega)]
    rfl

theorem gen_toRef {find : Str → Option Ref} {p : List V} {t : Str} (hp : p ≠ []) (hl : p.length ≤ 2)
    (h : Gen find (.var (last p)) t) : Gen find (toRef p) (pathText p t) := by
  match p, hp, hl with
  | [v], _, _ => exact h
  | [v, w], _, _ =>
    have := gen_ddt (own := v) h
    show Gen find (.ddt v (.var w)) (v.loc ++ "%".toList ++ t)
    rw [List.append_assoc]
    exact this
  | _ :: _ :: _ :: _, _, hl => simp at hl

/-- A bound for all items. -/
theorem bound_all {α : Type} (P : α → Nat → Prop) (l : List α) (h : ∀ x ∈ l, ∃ n, ∀ m, n ≤ m → P x m) :
    ∃ n, ∀ m, n ≤ m → ∀ x ∈ l, P x m := by
  induction l with
  | nil => exact ⟨0, fun m _ x hx => by cases hx⟩
  | cons a l ih =>
    obtain ⟨n, hn⟩ := h a (List.mem_cons_self ..)
    obtain ⟨k, hk⟩ := ih fun x hx => h x (List.mem_cons_of_mem _ hx)
    refine ⟨max n k, fun m hm x hx => ?_⟩
    rcases List.mem_cons.1 hx with rfl | hx
    · exact hn m (by omega)
    · exact hk m (by omega) x hx

theorem gen_array {find : Str → Option Ref} {v : V} {name : Str} {raws : List Str} {dims : List (List (Str × Str))}
    (hd : dims ≠ []) (hloc : v.loc = name ++ "(".toList ++ joined ",".toList raws ++ ")".toList)
    (hn : name ≠ []) (hp : '(' ∉ name) (hs : strip name = name)
    (hr : raws.map strip = dims.map (fun d => joined ":".toList (d.map (·.1)))) (hc : ∀ r ∈ raws, ',' ∉ r)
    (hk : ∀ d ∈ dims, d ≠ [] ∧ ∀ x ∈ d, ':' ∉ x.1)
    (hi : ∀ d ∈ dims, ∀ x ∈ d, ∃ n, ∀ m, n ≤ m → itemText find m x.1 = some x.2) :
    Gen find (.var v) (name ++ "(".toList ++ joined ", ".toList (dims.map fun d => joined ":".toList (d.map (·.2))) ++ ")".toList) := by
  obtain ⟨n, hb⟩ := bound_all (fun d m => ∀ x ∈ d, itemText find m x.1 = some x.2) dims
    (fun d hdm => bound_all (fun x m => itemText find m x.1 = some x.2) d (hi d hdm))
  refine ⟨n + 1, fun m hm => ?_⟩
  cases m with
  | zero => omega
  | succ m =>
    have hne : raws ≠ [] := by
      rintro rfl
      rw [List.map_nil] at hr
      exact hd (List.map_eq_nil_iff.1 hr.symm)
    have hind : indices v.loc = some (name, dims.map (fun d => joined ":".toList (d.map (·.1)))) := by
      rw [hloc, ← hr]
      have := indices_array (inner := joined ",".toList raws) hn hp hs
      rw [show (",".toList : Str) = [','] from rfl, splitOn_joined ',' raws hne hc] at this
      rw [← this]
      congr 1
      simp
    rw [callString_array hind, List.map_map]
    have key : ∀ d ∈ dims, ((fun d => (allSome ((Chk.splitOn ':' d).map (itemText find m))).map (join [':'])) ∘
        fun d : List (Str × Str) => joined ":".toList (d.map (·.1))) d = some (joined ":".toList (d.map (·.2))) := by
      intro d hdm
      show (allSome ((Chk.splitOn ':' (joined [':'] (d.map (·.1)))).map (itemText find m))).map (join [':']) = _
      rw [splitOn_joined ':' _ (by simpa using (hk d hdm).1) (by
        intro t ht
        obtain ⟨x, hx, rfl⟩ := List.mem_map.1 ht
        exact (hk d hdm).2 x hx), List.map_map, allSome_map (f := itemText find m ∘ fun x : Str × Str => x.1) (g := fun x : Str × Str => x.2) (fun x hx => hb m (by omega) d hdm x hx), Option.map_some,
        join_eq]
      rfl
    rw [allSome_map key, Option.map_some, join_eq]
    congr 1
    show _ = name ++ ['('] ++ _ ++ [')']
    simp only [List.append_assoc, List.cons_append, List.nil_append]
    rfl

/-- C67: if no component has components itself and no variable with components is an array reference, the reference written for a
variable or component is its Fortran reference, with the indices of an array reference replaced by their references. -/
theorem C67_reference_partial {lib : Lib} {fuel : Nat} {headers : List Header} {const : Option (Str × V)} {H : Host}
    {ps : List (List V)} (hb : build fuel lib headers const = some H) (hp : Paths lib (variablesOf headers const) ps)
    (hsh : Shallow ps) {p : List V} {t : Str} (ht : PathRef ps p t) :
    ∃ r, H.find (last p).std = some r ∧ ∃ n, ∀ m, n ≤ m → callString H.find m r = some t := by
  obtain ⟨_, _, hperm, hg, _⟩ := build_entries hb hp
  have hfind : ∀ p ∈ ps, H.find (last p).std = some (toRef p) := by
    intro p hpm
    have := find_mem hg (r := toRef p) (hperm.mem_iff.2 (List.mem_map.2 ⟨p, hpm, rfl⟩))
    rwa [toRef_leaf] at this
  have hl : (lib.map (·.1)).Nodup := ((build_iff lib fuel headers const).1 ⟨H, hb⟩).1
  have hne : ∀ p ∈ ps, p ≠ [] := by
    obtain ⟨n, hn⟩ := pathsN_of_paths hl hp
    intro p hpm hh
    exact pathsN_ne hn (hh ▸ hpm)
  have main : Gen H.find (toRef p) t := by
    induction ht with
    | plain hm hpl => exact gen_toRef (hne _ hm) (hsh _ hm).1 ⟨1, fun m hm => by
        cases m with
        | zero => omega
        | succ m => exact callString_plain hpl⟩
    | @array p name raws dims q hm hd hloc hn hpar hst hr hc hk hother hvar _ ih =>
      refine gen_toRef (hne _ hm) (hsh _ hm).1 (gen_array hd hloc hn hpar hst hr hc hk ?_)
      intro d hdm x hx
      by_cases hnm : Named ps x.1
      · obtain ⟨h1, h2⟩ := hvar d hdm x hx hnm
        obtain ⟨n, hgen⟩ := ih d hdm x hx hnm
        refine ⟨n, fun m hmn => ?_⟩
        unfold itemText
        have hf := hfind _ h1
        rw [h2] at hf
        rw [if_neg hnm.1, hf]
        exact hgen m hmn
      · rcases hother d hdm x hx hnm with ⟨e1, e2⟩ | ⟨e1, e2⟩ | ⟨e0, e1, e2⟩
        · exact ⟨0, fun m _ => by unfold itemText; rw [e1, e2, if_pos rfl]⟩
        · refine ⟨1, fun m hm1 => ?_⟩
          cases m with
          | zero => omega
          | succ m =>
            unfold itemText
            have hf : H.find "ccpp_constant_one".toList = some (.var constVar) := by
              show H.find constName = _
              unfold Host.find
              rw [if_pos rfl]
            rw [if_neg (by rw [e1]; decide), e1, hf, e2]
            exact callString_plain (by decide)
        · refine ⟨0, fun m _ => ?_⟩
          unfold itemText
          have hemp : x.1 ≠ [] := by
            intro h0
            rw [h0] at e1
            exact absurd e1 (by decide)
          have hnf : H.find x.1 = none := by
            cases hf : H.find x.1 with
            | none => rfl
            | some r =>
              exfalso
              have := ((C67_lookup hb hp).2 x.1).1 (by rw [hf]; rfl)
              rcases this with h0 | h0
              · exact e0 h0
              · exact hnm ⟨hemp, h0⟩
          rw [if_neg hemp, hnf, e2]
          simp only [e1, if_true]
  have hpm : p ∈ ps := by cases ht <;> assumption
  exact ⟨toRef p, hfind p hpm, main⟩

theorem pathText_len (v w : V) (p : List V) (t : Str) : (pathText (v :: w :: p) t).length ≥ v.loc.length + 1 + t.length ∧
    (p ≠ [] → (pathText (v :: w :: p) t).length > v.loc.length + 1 + t.length) := by
  induction p generalizing v w with
  | nil => simp [pathText]; omega
  | cons x p ih =>
    have := (ih w x).1
    have e : pathText (v :: w :: x :: p) t = v.loc ++ "%".toList ++ pathText (w :: x :: p) t := rfl
    rw [e]
    have hl : ("%".toList : Str).length = 1 := rfl
    simp only [List.length_append, hl]
    refine ⟨by omega, fun _ => by omega⟩

/-- Violation: the reference to a component of a component lacks the components between the variable and the last one
(ddt_library.py:37-43). -/
theorem C67_nested_violated {lib : Lib} {fuel : Nat} {headers : List Header} {const : Option (Str × V)} {H : Host}
    {ps : List (List V)} (hb : build fuel lib headers const = some H) (hp : Paths lib (variablesOf headers const) ps)
    {p : List V} (hm : p ∈ ps) (hlen : 3 ≤ p.length) (hpl : '(' ∉ (last p).loc) :
    ∃ r, H.find (last p).std = some r ∧ (∀ n, callString H.find (n + 2) r = some ((root p).loc ++ "%".toList ++ (last p).loc)) ∧
      (root p).loc ++ "%".toList ++ (last p).loc ≠ pathText p (last p).loc := by
  obtain ⟨_, _, hperm, hg, _⟩ := build_entries hb hp
  have hfind := find_mem hg (r := toRef p) (hperm.mem_iff.2 (List.mem_map.2 ⟨p, hm, rfl⟩))
  rw [toRef_leaf] at hfind
  refine ⟨toRef p, hfind, ?_, ?_⟩
  · intro n
    match p, hlen with
    | v :: w :: x :: p, _ =>
      show callString H.find (n + 2) (.ddt v (.var (last (w :: x :: p)))) = _
      have hpl : '(' ∉ (last (w :: x :: p)).loc := hpl
      rw [callString, callString_plain hpl]
      show some _ = some (v.loc ++ ['%'] ++ (last (w :: x :: p)).loc)
      rw [List.append_assoc]
      rfl
  · match p, hlen with
    | v :: w :: x :: p, _ =>
      intro h
      have h1 := (pathText_len v w (x :: p) (last (v :: w :: x :: p)).loc).2 (by simp)
      rw [← h] at h1
      have hl : ("%".toList : Str).length = 1 := rfl
      have hr : root (v :: w :: x :: p) = v := rfl
      simp only [List.length_append, hl, hr] at h1
      omega

end Ccpp.HM
