import Verif.Spec.FileUtils
/-!
# C19, C20: moving generated files, expanding file lists
-/
namespace Ccpp.Files

section Move
variable {C : Type} [DecidableEq C]

theorem noDuplicates_spec {seen : List String} {rs : List Path} (h : noDuplicates seen rs = true) :
    (rs.map (·.getLastD "")).Nodup ∧ ∀ r ∈ rs, r.getLastD "" ∉ seen := by
  induction rs generalizing seen with
  | nil => simp
  | cons r rs ih =>
    rw [noDuplicates] at h
    split at h
    · cases h
    · next hn =>
      have hn' : r.getLastD "" ∉ seen := by simpa using hn
      obtain ⟨h1, h2⟩ := ih h
      refine ⟨?_, ?_⟩
      · simp only [List.map_cons, List.nodup_cons]
        refine ⟨?_, h1⟩
        intro hm
        obtain ⟨r', hr', he⟩ := List.mem_map.1 hm
        exact h2 r' hr' (by rw [he]; exact List.mem_cons_self)
      · intro r' hr'
        rcases List.mem_cons.1 hr' with rfl | hr'
        · exact hn'
        · exact fun hc => h2 r' hr' (List.mem_cons_of_mem _ hc)

/-- Distinct base names: a source path is never a target path. -/
theorem src_ne_dest {src dest r r' : Path} (hne : src ≠ dest) (hr : r ≠ []) (hr' : r' ≠ [])
    (hb : r = r' ∨ r.getLastD "" ≠ r'.getLastD "") : src ++ r ≠ dest ++ r' := by
  intro h
  rcases hb with rfl | hb
  · exact hne (List.append_cancel_right h)
  · apply hb
    have := congrArg (fun l => l.getLastD "") h
    have e1 : ∀ (a b : Path), b ≠ [] → (a ++ b).getLastD "" = b.getLastD "" := by
      intro a b hb
      simp [List.getLastD_eq_getLast?, List.getLast?_append]
      cases hh : b.getLast? with
      | none => simp [List.getLast?_eq_none_iff] at hh; exact absurd hh hb
      | some x => simp
    simp only [e1 _ _ hr, e1 _ _ hr'] at this
    exact this

/-- What a target file contains after the move, as a function of the contents before. -/
def moved (fs : FS C) (src dest : Path) (overwrite : Bool) (r : Path) : Option C :=
  match fs.file (dest ++ r) with
  | none => if fs.dir (dest ++ r) then none else fs.file (src ++ r)
  | some d => if overwrite then fs.file (src ++ r) else some d

theorem moveOne_spec {src dest : Path} {overwrite : Bool} {fs fs' : FS C} {r : Path}
    (hne : src ++ r ≠ dest ++ r) (hsome : (fs.file (src ++ r)).isSome)
    (h : moveOne src dest overwrite fs r = some fs') :
    fs'.dir = fs.dir ∧ fs'.file (dest ++ r) = moved fs src dest overwrite r ∧
    fs'.file (src ++ r) = none ∧
    ∀ p, p ≠ dest ++ r → p ≠ src ++ r → fs'.file p = fs.file p := by
  obtain ⟨c, hc⟩ := Option.isSome_iff_exists.1 hsome
  unfold moveOne at h
  unfold moved
  simp only [FS.replace, hc, FS.remove] at h
  cases hd : fs.file (dest ++ r) with
  | none =>
    rw [hd] at h
    cases hdir : fs.dir (dest ++ r) <;> cases overwrite <;>
      cases hdl : fs.dir (dest ++ r).dropLast <;> simp [hdir, hdl] at h <;> subst h <;>
      simp_all [Ne.symm hne]
  | some d =>
    rw [hd] at h
    by_cases hcd : c = d <;> cases hdir : fs.dir (dest ++ r) <;> cases overwrite <;>
      cases hdl : fs.dir (dest ++ r).dropLast <;> simp [hdir, hdl, hcd] at h <;> subst h <;>
      simp_all [Ne.symm hne]

theorem moveAll_spec {src dest : Path} {overwrite : Bool} (hne : src ≠ dest) :
    ∀ (rs : List Path) (fs fs' : FS C), (∀ r ∈ rs, r ≠ []) →
    (rs.map (·.getLastD "")).Nodup → (∀ r ∈ rs, (fs.file (src ++ r)).isSome) →
    moveAll src dest overwrite fs rs = some fs' →
    fs'.dir = fs.dir ∧
    (∀ r ∈ rs, fs'.file (dest ++ r) = moved fs src dest overwrite r) ∧
    (∀ r ∈ rs, fs'.file (src ++ r) = none) ∧
    ∀ p, (∀ r ∈ rs, p ≠ dest ++ r) → (∀ r ∈ rs, p ≠ src ++ r) → fs'.file p = fs.file p := by
  intro rs
  induction rs with
  | nil => intro fs fs' _ _ _ h; simp [moveAll] at h; subst h; simp
  | cons r rs ih =>
    intro fs fs' hnil hnd hs h
    rw [moveAll] at h
    split at h
    · cases h
    · next fs1 h1 =>
      have hr0 : r ≠ [] := hnil r List.mem_cons_self
      have hself : src ++ r ≠ dest ++ r := src_ne_dest hne hr0 hr0 (Or.inl rfl)
      obtain ⟨d1, a1, b1, c1⟩ := moveOne_spec hself (hs r List.mem_cons_self) h1
      simp only [List.map_cons, List.nodup_cons] at hnd
      have hb : ∀ r' ∈ rs, r.getLastD "" ≠ r'.getLastD "" := by
        intro r' hr' he
        exact hnd.1 (List.mem_map.2 ⟨r', hr', he.symm⟩)
      have n1 : ∀ r' ∈ rs, r' ≠ r := by
        intro r' hr' he; exact hb r' hr' (by rw [he])
      have hs1 : ∀ r' ∈ rs, fs1.file (src ++ r') = fs.file (src ++ r') := by
        intro r' hr'
        apply c1
        · exact src_ne_dest hne (hnil r' (List.mem_cons_of_mem _ hr')) hr0
            (Or.inr (hb r' hr').symm)
        · intro he; exact n1 r' hr' (List.append_cancel_left he)
      have hd1 : ∀ r' ∈ rs, fs1.file (dest ++ r') = fs.file (dest ++ r') := by
        intro r' hr'
        apply c1
        · intro he; exact n1 r' hr' (List.append_cancel_left he)
        · intro he
          exact src_ne_dest hne hr0 (hnil r' (List.mem_cons_of_mem _ hr'))
            (Or.inr (hb r' hr')) he.symm
      obtain ⟨d2, a2, b2, c2⟩ := ih fs1 fs' (fun r' hr' => hnil r' (List.mem_cons_of_mem _ hr'))
        hnd.2 (fun r' hr' => by rw [hs1 r' hr']; exact hs r' (List.mem_cons_of_mem _ hr')) h
      have keepD : fs'.file (dest ++ r) = fs1.file (dest ++ r) := by
        apply c2
        · intro r' hr' he; exact n1 r' hr' (List.append_cancel_left he).symm
        · intro r' hr' he
          exact src_ne_dest hne (hnil r' (List.mem_cons_of_mem _ hr')) hr0
            (Or.inr (hb r' hr').symm) he.symm
      have keepS : fs'.file (src ++ r) = fs1.file (src ++ r) := by
        apply c2
        · intro r' hr' he
          exact src_ne_dest hne hr0 (hnil r' (List.mem_cons_of_mem _ hr'))
            (Or.inr (hb r' hr')) he
        · intro r' hr' he; exact n1 r' hr' (List.append_cancel_left he).symm
      refine ⟨d2.trans d1, ?_, ?_, ?_⟩
      · intro r' hr'
        rcases List.mem_cons.1 hr' with rfl | hr'
        · rw [keepD, a1]
        · rw [a2 r' hr']; unfold moved; rw [hs1 r' hr', hd1 r' hr', d1]
      · intro r' hr'
        rcases List.mem_cons.1 hr' with rfl | hr'
        · rw [keepS, b1]
        · exact b2 r' hr'
      · intro p hp hq
        rw [c2 p (fun r' hr' => hp r' (List.mem_cons_of_mem _ hr'))
          (fun r' hr' => hq r' (List.mem_cons_of_mem _ hr'))]
        exact c1 p (hp r List.mem_cons_self) (hq r List.mem_cons_self)

/-- `order` is what os.walk(src) yields: the relative paths of all files below src. -/
def Walk (fs : FS C) (src : Path) (order : List Path) : Prop :=
  (∀ r ∈ order, r ≠ []) ∧ ∀ r, r ≠ [] → (r ∈ order ↔ (fs.file (src ++ r)).isSome)

/-- Same directory: nothing happens. -/
theorem C19_same_directory (fs : FS C) (src : Path) (order : List Path) (ow rm : Bool) :
    moveModified fs src src order ow rm = some fs := by
  simp [moveModified]

/-- Two generated files with one base name: the move is refused before anything is touched. -/
theorem C19_duplicate_refused (fs : FS C) (src dest : Path) (order : List Path) (ow rm : Bool)
    (hne : src ≠ dest) (h : ¬ (order.map (·.getLastD "")).Nodup) :
    moveModified fs src dest order ow rm = none := by
  unfold moveModified
  rw [if_pos hne, if_neg]
  intro hd
  exact h (noDuplicates_spec hd).1

/-- **C19, characterisation.**  After a successful move every file of the source is gone from the
source; the file of the same relative path in dest holds `moved …`; every other path outside the
source keeps its contents. -/
theorem C19_frame {fs fs' : FS C} {src dest : Path} {order : List Path} {ow rm : Bool}
    (hw : Walk fs src order) (hne : src ≠ dest)
    (h : moveModified fs src dest order ow rm = some fs') :
    (∀ r ∈ order, fs'.file (dest ++ r) = moved fs src dest ow r ∨ src <+: dest ++ r) ∧
    (∀ r, r ≠ [] → (∀ r' ∈ order, src ++ r ≠ dest ++ r') → fs'.file (src ++ r) = none) ∧
    (∀ p, (∀ r ∈ order, p ≠ dest ++ r) → ¬ src <+: p → fs'.file p = fs.file p) := by
  unfold moveModified at h
  rw [if_pos hne] at h
  split at h
  next hd =>
    split at h
    · cases h
    next fs1 h1 =>
      obtain ⟨hd1, -⟩ := noDuplicates_spec hd
      obtain ⟨d, a, b, c⟩ := moveAll_spec hne order fs fs1 hw.1 hd1
        (fun r hr => (hw.2 r (hw.1 r hr)).1 hr) h1
      have hsrc : ∀ r, r ≠ [] → (∀ r' ∈ order, src ++ r ≠ dest ++ r') →
          fs1.file (src ++ r) = none := by
        intro r hr hx
        by_cases hm : r ∈ order
        · exact b r hm
        · rw [c (src ++ r) hx]
          · have := mt (hw.2 r hr).2 hm
            simpa using this
          · intro r' hr' he
            exact hm (by rw [List.append_cancel_left he]; exact hr')
      cases rm with
      | false =>
        simp at h; subst h
        refine ⟨fun r hr => Or.inl (a r hr), hsrc, ?_⟩
        intro p hp hq
        exact c p hp (fun r _ he => hq ⟨r, he.symm⟩)
      | true =>
        simp at h; subst h
        refine ⟨?_, ?_, ?_⟩
        · intro r hr
          by_cases hp : src <+: dest ++ r
          · exact Or.inr hp
          · left; simp only [removeTree, if_neg hp]; exact a r hr
        · intro r _ _; simp [removeTree]
        · intro p hp hq
          simp only [removeTree, if_neg hq]
          exact c p hp (fun r _ he => hq ⟨r, he.symm⟩)
  · cases h

/-- **C19 (partial).**  If the move is forced, or no target existed before, or it had the generated
contents already, every generated file is in dest with its generated contents, and nothing else
outside the source changed.  What is missing: targets that exist with other contents
(`C19_violated`). -/
theorem C19_delivered_partial {fs fs' : FS C} {src dest : Path} {order : List Path} {ow rm : Bool}
    (hw : Walk fs src order) (hne : src ≠ dest) (hout : ∀ r ∈ order, ¬ src <+: dest ++ r)
    (hdir : ∀ r ∈ order, fs.dir (dest ++ r) = false)
    (hcase : ow = true ∨ ∀ r ∈ order, fs.file (dest ++ r) = none ∨
      fs.file (dest ++ r) = fs.file (src ++ r))
    (h : moveModified fs src dest order ow rm = some fs') :
    (∀ r c, r ≠ [] → fs.file (src ++ r) = some c → fs'.file (dest ++ r) = some c) ∧
    (∀ r, r ≠ [] → fs'.file (src ++ r) = none) ∧
    (∀ p, ¬ src <+: p → (∀ r, r ≠ [] → p = dest ++ r → fs.file (src ++ r) = none) →
      fs'.file p = fs.file p) := by
  obtain ⟨h1, h2, h3⟩ := C19_frame hw hne h
  refine ⟨?_, ?_, ?_⟩
  · intro r c hr hc
    have hm : r ∈ order := (hw.2 r hr).2 (by simp [hc])
    rcases h1 r hm with h1 | h1
    · rw [h1, moved]
      rcases hcase with rfl | hcase
      · cases fs.file (dest ++ r) <;> simp [hdir r hm, hc]
      · rcases hcase r hm with hx | hx
        · simp [hx, hdir r hm, hc]
        · rw [hx, hc]; simp
    · exact absurd h1 (hout r hm)
  · intro r hr
    apply h2 r hr
    intro r' hr' he
    exact hout r' hr' ⟨r, he⟩
  · intro p hp hq
    apply h3 p _ hp
    intro r hr he
    have := hq r (hw.1 r hr) he
    have h4 := (hw.2 r (hw.1 r hr)).1 hr
    rw [this] at h4
    cases h4

/-- **C19 is false in general.**  Whenever a generated file differs from the file of the same name
already in dest and overwrite is off, a successful move keeps the stale file and deletes the
generated one. -/
theorem C19_violated {fs fs' : FS C} {src dest r : Path} {order : List Path} {rm : Bool} {c d : C}
    (hw : Walk fs src order) (hne : src ≠ dest) (hout : ∀ r ∈ order, ¬ src <+: dest ++ r)
    (hr : r ≠ []) (hs : fs.file (src ++ r) = some c) (hd : fs.file (dest ++ r) = some d)
    (h : moveModified fs src dest order false rm = some fs') :
    fs'.file (dest ++ r) = some d ∧ fs'.file (src ++ r) = none := by
  obtain ⟨h1, h2, -⟩ := C19_frame hw hne h
  have hm : r ∈ order := (hw.2 r hr).2 (by simp [hs])
  refine ⟨?_, ?_⟩
  · rcases h1 r hm with h1 | h1
    · rw [h1, moved, hd]; simp
    · exact absurd h1 (hout r hm)
  · apply h2 r hr
    intro r' hr' he
    exact hout r' hr' ⟨r, he⟩

theorem moveAll_succeeds {src dest : Path} {ow : Bool} (hne : src ≠ dest) :
    ∀ (rs : List Path) (fs : FS C), (∀ r ∈ rs, r ≠ []) →
    (rs.map (·.getLastD "")).Nodup → (∀ r ∈ rs, (fs.file (src ++ r)).isSome) →
    (∀ r ∈ rs, fs.dir (dest ++ r) = false ∧ fs.dir (dest ++ r).dropLast = true) →
    (moveAll src dest ow fs rs).isSome := by
  intro rs
  induction rs with
  | nil => intros; simp [moveAll]
  | cons r rs ih =>
    intro fs hnil hnd hs hdir
    rw [moveAll]
    have hr0 : r ≠ [] := hnil r List.mem_cons_self
    have hself : src ++ r ≠ dest ++ r := src_ne_dest hne hr0 hr0 (Or.inl rfl)
    simp only [List.map_cons, List.nodup_cons] at hnd
    obtain ⟨hd1, hd2⟩ := hdir r List.mem_cons_self
    obtain ⟨c, hc⟩ := Option.isSome_iff_exists.1 (hs r List.mem_cons_self)
    cases hm : moveOne src dest ow fs r with
    | none =>
      exfalso
      simp only [moveOne, FS.replace, hc, hd1, hd2] at hm
      split at hm <;> simp at hm
      split at hm <;> cases hm
    | some fs1 =>
      obtain ⟨d1, -, -, c1⟩ := moveOne_spec hself (hs r List.mem_cons_self) hm
      apply ih fs1 (fun r' hr' => hnil r' (List.mem_cons_of_mem _ hr')) hnd.2
      · intro r' hr'
        have hb : r.getLastD "" ≠ r'.getLastD "" := by
          intro he; exact hnd.1 (List.mem_map.2 ⟨r', hr', he.symm⟩)
        rw [c1]
        · exact hs r' (List.mem_cons_of_mem _ hr')
        · exact src_ne_dest hne (hnil r' (List.mem_cons_of_mem _ hr')) hr0 (Or.inr hb.symm)
        · intro he; exact hb (by rw [List.append_cancel_left he])
      · intro r' hr'; rw [d1]; exact hdir r' (List.mem_cons_of_mem _ hr')

/-- The move succeeds when base names are distinct and every target directory exists. -/
theorem C19_succeeds (fs : FS C) (src dest : Path) (order : List Path) (ow rm : Bool)
    (hw : Walk fs src order) (hnd : (order.map (·.getLastD "")).Nodup)
    (hdir : ∀ r ∈ order, fs.dir (dest ++ r) = false ∧ fs.dir (dest ++ r).dropLast = true) :
    (moveModified fs src dest order ow rm).isSome := by
  unfold moveModified
  by_cases hne : src ≠ dest
  · rw [if_pos hne]
    have hd : ∀ (rs : List Path) (seen : List String), (rs.map (·.getLastD "")).Nodup →
        (∀ r ∈ rs, r.getLastD "" ∉ seen) → noDuplicates seen rs = true := by
      intro rs
      induction rs with
      | nil => intros; rfl
      | cons r rs ih =>
        intro seen h1 h2
        simp only [List.map_cons, List.nodup_cons] at h1
        rw [noDuplicates, if_neg (by simpa using h2 r List.mem_cons_self)]
        apply ih _ h1.2
        intro r' hr' hm
        rcases List.mem_cons.1 hm with he | hm
        · exact h1.1 (List.mem_map.2 ⟨r', hr', he⟩)
        · exact h2 r' (List.mem_cons_of_mem _ hr') hm
    rw [if_pos (hd order [] hnd (by simp))]
    have := moveAll_succeeds (ow := ow) hne order fs hw.1 hnd
      (fun r hr => (hw.2 r (hw.1 r hr)).1 hr) hdir
    obtain ⟨x, hx⟩ := Option.isSome_iff_exists.1 this
    rw [hx]; simp
  · rw [if_neg hne]; simp

/-- Non-vacuity: two generated files, one of them present in dest with stale contents. -/
def exFS : FS Nat :=
  { file := fun p => if p = ["t", "a.F90"] then some 1 else if p = ["t", "b.F90"] then some 2
      else if p = ["o", "a.F90"] then some 7 else if p = ["o", "z.F90"] then some 9 else none
    dir := fun p => p = ["t"] || p = ["o"] }

theorem exWalk : Walk exFS ["t"] [["a.F90"], ["b.F90"]] := by
  refine ⟨by simp, ?_⟩
  intro r hr
  simp only [exFS]
  match r, hr with
  | [a], _ => by_cases h1 : a = "a.F90" <;> by_cases h2 : a = "b.F90" <;> simp [h1, h2]
  | a :: b :: l, _ => simp

/-- The hypotheses of `C19_delivered_partial` hold, and it runs to success with overwrite … -/
example : ∃ fs', moveModified exFS ["t"] ["o"] [["a.F90"], ["b.F90"]] true true = some fs' ∧
    fs'.file ["o", "a.F90"] = some 1 ∧ fs'.file ["o", "z.F90"] = some 9 := by
  obtain ⟨fs', h⟩ := Option.isSome_iff_exists.1
    (C19_succeeds exFS ["t"] ["o"] _ true true exWalk (by decide) (by decide))
  obtain ⟨h1, -, h3⟩ := C19_delivered_partial exWalk (by decide) (by decide) (by decide)
    (Or.inl rfl) h
  refine ⟨fs', h, h1 ["a.F90"] 1 (by simp) rfl, ?_⟩
  rw [h3 ["o", "z.F90"] (by decide)]
  · rfl
  · intro r _ he
    simp only [List.cons_append, List.nil_append, List.cons.injEq, true_and] at he
    subst he; decide

/-- … and without it the stale `a.F90` survives. -/
example : ∃ fs', moveModified exFS ["t"] ["o"] [["a.F90"], ["b.F90"]] false true = some fs' ∧
    fs'.file ["o", "a.F90"] = some 7 := by
  obtain ⟨fs', h⟩ := Option.isSome_iff_exists.1
    (C19_succeeds exFS ["t"] ["o"] _ false true exWalk (by decide) (by decide))
  exact ⟨fs', h, (C19_violated (r := ["a.F90"]) (c := 1) (d := 7) exWalk (by decide) (by decide)
    (by simp) rfl rfl h).1⟩

end Move

/-! ## C20 -/
section Lists
variable {e : Env} {sufs : List Str}

theorem isPathLine_eq : isPathLine = IsEntry := by
  funext l
  cases l with
  | nil => rfl
  | cons c l =>
    rw [Bool.eq_iff_iff]
    simp [isPathLine, IsEntry]

theorem readLines_eq (root : Str) (ls : List Str) :
    readLines e root ls = ((ls.map strip).filter IsEntry).map (e.abs root) := by
  rw [← isPathLine_eq]
  induction ls with
  | nil => rfl
  | cons l ls ih =>
    simp only [readLines, List.map_cons, List.filter_cons]
    split <;> simp [ih]

/-- Reading a list file: the entries, blank and comment lines skipped, in order. -/
theorem readPathnames_eq (t : Str) (h : (readPathnames e t).2 = 0) :
    (readPathnames e t).1 = entriesOf e t := by
  unfold readPathnames at h ⊢
  split at h
  · next hr => simp [hr, readLines_eq, entriesOf]
  · simp at h

/-- Induction over successful traversals. -/
theorem list_ind {P : Str → Acc → List Str → Acc → Prop} {Q : Acc → List Str → Acc → Prop}
    (nil : ∀ root a, P root a [] a)
    (dir : ∀ root a f fs a', e.isdir (e.abs root f) = true →
      P root (addDir e a (e.abs root f) sufs) fs a' → P root a (f :: fs) a')
    (file : ∀ root a f fs a', e.isdir (e.abs root f) = false → e.suff f ∈ sufs →
      P root (addUnique e a (e.glob (e.abs root f))) fs a' → P root a (f :: fs) a')
    (miss : ∀ root a f fs a', e.isdir (e.abs root f) = false → e.suff f ∉ sufs →
      e.suff f = "txt".toList → P root { a with errs := a.errs + 1 } fs a' → P root a (f :: fs) a')
    (list : ∀ root a a1 f fs a', e.isdir (e.abs root f) = false → e.suff f ∉ sufs →
      e.suff f = "txt".toList → Q a (e.glob (e.abs root f)) a1 → P root a1 fs a' →
      P root a (f :: fs) a')
    (skip : ∀ root a f fs a', e.isdir (e.abs root f) = false → e.suff f ∉ sufs →
      e.suff f ≠ "txt".toList → P root a fs a' → P root a (f :: fs) a')
    (tnil : ∀ a, Q a [] a)
    (tdup : ∀ a t ts a', t ∈ a.txt → Q a ts a' → Q a (t :: ts) a')
    (tnew : ∀ a t ts a1 a', t ∉ a.txt → P (e.dirname t)
      ⟨a.master, a.txt ++ [t], a.errs + (readPathnames e t).2⟩ (readPathnames e t).1 a1 →
      Q a1 ts a' → Q a (t :: ts) a') :
    ∀ fuel, (∀ root a fs a', listInt e sufs fuel root a fs = some a' → P root a fs a') ∧
      (∀ a ts a', listTxt e sufs fuel a ts = some a' → Q a ts a') := by
  intro fuel
  induction fuel with
  | zero =>
    have hQ : ∀ a ts a', listTxt e sufs 0 a ts = some a' → Q a ts a' := by
      intro a ts
      induction ts with
      | nil => intro a' h; rw [listTxt] at h; cases h; exact tnil a
      | cons t ts ih =>
        intro a' h
        rw [listTxt] at h
        split at h
        · next hc => exact tdup a t ts a' (by simpa using hc) (ih a' h)
        · cases h
    refine ⟨?_, hQ⟩
    intro root a fs
    induction fs generalizing a with
    | nil => intro a' h; rw [listInt] at h; cases h; exact nil root a
    | cons f fs ih =>
      intro a' h
      rw [listInt] at h
      split at h
      · next hd => exact dir _ _ _ _ _ hd (ih _ _ h)
      · next hd =>
        have hd : e.isdir (e.abs root f) = false := by simpa using hd
        split at h
        · next hs => exact file _ _ _ _ _ hd (by simpa using hs) (ih _ _ h)
        · next hs =>
          have hs : e.suff f ∉ sufs := by simpa using hs
          split at h
          · next ht =>
            split at h
            · exact miss _ _ _ _ _ hd hs ht (ih _ _ h)
            · split at h
              · cases h
              · next a1 h1 => exact list _ _ a1 _ _ _ hd hs ht (hQ _ _ _ h1) (ih _ _ h)
          · next ht => exact skip _ _ _ _ _ hd hs ht (ih _ _ h)
  | succ fuel IH =>
    have hQ : ∀ ts a a', listTxt e sufs (fuel + 1) a ts = some a' → Q a ts a' := by
      intro ts
      induction ts with
      | nil => intro a a' h; rw [listTxt] at h; cases h; exact tnil a
      | cons t ts ih =>
        intro a a' h
        rw [listTxt] at h
        split at h
        · next hc => exact tdup a t ts a' (by simpa using hc) (ih a a' h)
        · next hc =>
          split at h
          · cases h
          · next a1 h1 =>
            exact tnew a t ts a1 a' (by simpa using hc) (IH.1 _ _ _ _ h1) (ih _ _ h)
    refine ⟨?_, fun a ts => hQ ts a⟩
    intro root a fs
    induction fs generalizing a with
    | nil => intro a' h; rw [listInt] at h; cases h; exact nil root a
    | cons f fs ih =>
      intro a' h
      rw [listInt] at h
      split at h
      · next hd => exact dir _ _ _ _ _ hd (ih _ _ h)
      · next hd =>
        have hd : e.isdir (e.abs root f) = false := by simpa using hd
        split at h
        · next hs => exact file _ _ _ _ _ hd (by simpa using hs) (ih _ _ h)
        · next hs =>
          have hs : e.suff f ∉ sufs := by simpa using hs
          split at h
          · next ht =>
            split at h
            · exact miss _ _ _ _ _ hd hs ht (ih _ _ h)
            · split at h
              · cases h
              · next a1 h1 => exact list _ _ a1 _ _ _ hd hs ht (hQ _ _ _ h1) (ih _ _ h)
          · next ht => exact skip _ _ _ _ _ hd hs ht (ih _ _ h)

/-- What add_unique_files does to the accumulator. -/
theorem addUnique_spec (e : Env) (fs : List Str) : ∀ a : Acc,
    (addUnique e a fs).txt = a.txt ∧ a.errs ≤ (addUnique e a fs).errs ∧
    (∀ p, p ∈ (addUnique e a fs).master ↔ p ∈ a.master ∨ (p ∈ fs ∧ e.readable p = true)) ∧
    (a.master.Nodup → (addUnique e a fs).master.Nodup) ∧
    ((addUnique e a fs).errs = 0 → ∀ p ∈ fs, e.readable p = true) := by
  induction fs with
  | nil => intro a; simp [addUnique]
  | cons f fs ih =>
    intro a
    rw [addUnique]
    by_cases hr : e.readable f = true
    · simp only [hr, Bool.not_true, Bool.false_eq_true, if_false]
      split
      · next hc =>
        have hc : f ∈ a.master := by simpa using hc
        obtain ⟨h1, h2, h3, h4, h5⟩ := ih a
        refine ⟨h1, h2, ?_, h4, ?_⟩
        · intro p; rw [h3 p]
          constructor
          · rintro (h | ⟨h, h'⟩)
            · exact Or.inl h
            · exact Or.inr ⟨List.mem_cons_of_mem _ h, h'⟩
          · rintro (h | ⟨h, h'⟩)
            · exact Or.inl h
            · rcases List.mem_cons.1 h with rfl | h
              · exact Or.inl hc
              · exact Or.inr ⟨h, h'⟩
        · intro h0 p hp
          rcases List.mem_cons.1 hp with rfl | hp
          · exact hr
          · exact h5 h0 p hp
      · next hc =>
        have hc : f ∉ a.master := by simpa using hc
        obtain ⟨h1, h2, h3, h4, h5⟩ := ih { a with master := a.master ++ [f] }
        refine ⟨h1, h2, ?_, ?_, ?_⟩
        · intro p; rw [h3 p]
          simp only [List.mem_append, List.mem_cons, List.not_mem_nil, or_false]
          constructor
          · rintro ((h | rfl) | ⟨h, h'⟩)
            · exact Or.inl h
            · exact Or.inr ⟨Or.inl rfl, hr⟩
            · exact Or.inr ⟨Or.inr h, h'⟩
          · rintro (h | ⟨rfl | h, h'⟩)
            · exact Or.inl (Or.inl h)
            · exact Or.inl (Or.inr rfl)
            · exact Or.inr ⟨h, h'⟩
        · intro hn
          apply h4
          simp only [List.nodup_append, hn, true_and]
          refine ⟨by simp, ?_⟩
          intro x hx y hy he
          simp at hy; subst hy; subst he; exact hc hx
        · intro h0 p hp
          rcases List.mem_cons.1 hp with rfl | hp
          · exact hr
          · exact h5 h0 p hp
    · have hr' : e.readable f = false := by simpa using hr
      simp only [hr', Bool.not_false, if_true]
      obtain ⟨h1, h2, h3, h4, h5⟩ := ih { a with errs := a.errs + 1 }
      refine ⟨h1, Nat.le_trans (Nat.le_succ _) h2, ?_, h4, ?_⟩
      · intro p; rw [h3 p]
        simp only [List.mem_cons]
        constructor
        · rintro (h | ⟨h, h'⟩)
          · exact Or.inl h
          · exact Or.inr ⟨Or.inr h, h'⟩
        · rintro (h | ⟨rfl | h, h'⟩)
          · exact Or.inl h
          · rw [hr'] at h'; cases h'
          · exact Or.inr ⟨h, h'⟩
      · intro h0
        simp only at h2; omega

theorem addDir_spec (e : Env) (d : Str) (ss : List Str) : ∀ a : Acc,
    (addDir e a d ss).txt = a.txt ∧ a.errs ≤ (addDir e a d ss).errs ∧
    (∀ p, p ∈ (addDir e a d ss).master ↔
      p ∈ a.master ∨ (∃ s ∈ ss, p ∈ e.globDir d s ∧ e.readable p = true)) ∧
    (a.master.Nodup → (addDir e a d ss).master.Nodup) ∧
    ((addDir e a d ss).errs = 0 → ∀ s ∈ ss, ∀ p ∈ e.globDir d s, e.readable p = true) := by
  induction ss with
  | nil => intro a; simp [addDir]
  | cons s ss ih =>
    intro a
    rw [addDir]
    obtain ⟨h1, h2, h3, h4, h5⟩ := ih (addUnique e a (e.globDir d s))
    obtain ⟨g1, g2, g3, g4, g5⟩ := addUnique_spec e (e.globDir d s) a
    refine ⟨h1.trans g1, Nat.le_trans g2 h2, ?_, fun h => h4 (g4 h), ?_⟩
    · intro p; rw [h3, g3]
      simp only [List.mem_cons, exists_eq_or_imp, or_assoc]
    · intro h0 s' hs'
      rcases List.mem_cons.1 hs' with rfl | hs'
      · exact g5 (by omega)
      · exact h5 h0 s' hs'

/-- Traversals only grow the lists, keep them duplicate free, and never lose errors. -/
theorem list_mono (fuel : Nat) :
    (∀ root a fs a', listInt e sufs fuel root a fs = some a' →
      (a.master.Nodup → a'.master.Nodup) ∧ (∀ p ∈ a.master, p ∈ a'.master) ∧
      (∀ t ∈ a.txt, t ∈ a'.txt) ∧ a.errs ≤ a'.errs) ∧
    (∀ a ts a', listTxt e sufs fuel a ts = some a' →
      (a.master.Nodup → a'.master.Nodup) ∧ (∀ p ∈ a.master, p ∈ a'.master) ∧
      (∀ t ∈ a.txt, t ∈ a'.txt) ∧ a.errs ≤ a'.errs) := by
  apply list_ind (P := fun _ a _ a' => (a.master.Nodup → a'.master.Nodup) ∧
      (∀ p ∈ a.master, p ∈ a'.master) ∧ (∀ t ∈ a.txt, t ∈ a'.txt) ∧ a.errs ≤ a'.errs)
    (Q := fun a _ a' => (a.master.Nodup → a'.master.Nodup) ∧ (∀ p ∈ a.master, p ∈ a'.master) ∧
      (∀ t ∈ a.txt, t ∈ a'.txt) ∧ a.errs ≤ a'.errs)
  · intro root a; simp
  · intro root a f fs a' _ ⟨i1, i2, i3, i4⟩
    obtain ⟨g1, g2, g3, g4, -⟩ := addDir_spec e (e.abs root f) sufs a
    exact ⟨fun h => i1 (g4 h), fun p hp => i2 p ((g3 p).2 (Or.inl hp)),
      fun t ht => i3 t (by rw [g1]; exact ht), Nat.le_trans g2 i4⟩
  · intro root a f fs a' _ _ ⟨i1, i2, i3, i4⟩
    obtain ⟨g1, g2, g3, g4, -⟩ := addUnique_spec e (e.glob (e.abs root f)) a
    exact ⟨fun h => i1 (g4 h), fun p hp => i2 p ((g3 p).2 (Or.inl hp)),
      fun t ht => i3 t (by rw [g1]; exact ht), Nat.le_trans g2 i4⟩
  · intro root a f fs a' _ _ _ ⟨i1, i2, i3, i4⟩
    exact ⟨i1, i2, i3, Nat.le_trans (Nat.le_succ _) i4⟩
  · intro root a a1 f fs a' _ _ _ ⟨j1, j2, j3, j4⟩ ⟨i1, i2, i3, i4⟩
    exact ⟨fun h => i1 (j1 h), fun p hp => i2 p (j2 p hp), fun t ht => i3 t (j3 t ht),
      Nat.le_trans j4 i4⟩
  · intro root a f fs a' _ _ _ h; exact h
  · intro a; simp
  · intro a t ts a' _ h; exact h
  · intro a t ts a1 a' _ ⟨j1, j2, j3, j4⟩ ⟨i1, i2, i3, i4⟩
    refine ⟨fun h => i1 (j1 h), fun p hp => i2 p (j2 p hp),
      fun t' ht => i3 t' (j3 t' (List.mem_append_left _ ht)), ?_⟩
    simp only at j4; omega

/-- Soundness. -/
theorem list_sound (fuel : Nat) :
    (∀ root a fs a', listInt e sufs fuel root a fs = some a' → a'.errs = 0 →
      ∀ p ∈ a'.master, p ∈ a.master ∨ ∃ f ∈ fs, Wanted e sufs root f p) ∧
    (∀ a ts a', listTxt e sufs fuel a ts = some a' → a'.errs = 0 → ∀ p ∈ a'.master,
      p ∈ a.master ∨ ∃ t ∈ ts, ∃ g ∈ entriesOf e t, Wanted e sufs (e.dirname t) g p) := by
  have key : ∀ fuel,
    (∀ root a fs a', listInt e sufs fuel root a fs = some a' → a.errs ≤ a'.errs ∧ (a'.errs = 0 →
      ∀ p ∈ a'.master, p ∈ a.master ∨ ∃ f ∈ fs, Wanted e sufs root f p)) ∧
    (∀ a ts a', listTxt e sufs fuel a ts = some a' → a.errs ≤ a'.errs ∧ (a'.errs = 0 →
      ∀ p ∈ a'.master,
      p ∈ a.master ∨ ∃ t ∈ ts, ∃ g ∈ entriesOf e t, Wanted e sufs (e.dirname t) g p)) := by
    apply list_ind (P := fun root a fs a' => a.errs ≤ a'.errs ∧ (a'.errs = 0 → ∀ p ∈ a'.master,
        p ∈ a.master ∨ ∃ f ∈ fs, Wanted e sufs root f p))
      (Q := fun a ts a' => a.errs ≤ a'.errs ∧ (a'.errs = 0 → ∀ p ∈ a'.master, p ∈ a.master ∨
        ∃ t ∈ ts, ∃ g ∈ entriesOf e t, Wanted e sufs (e.dirname t) g p))
    · intro root a; exact ⟨Nat.le_refl _, fun _ p hp => Or.inl hp⟩
    · intro root a f fs a' hd ⟨i0, i⟩
      obtain ⟨g1, g2, g3, g4, -⟩ := addDir_spec e (e.abs root f) sufs a
      refine ⟨Nat.le_trans g2 i0, fun h0 p hp => ?_⟩
      rcases i h0 p hp with hp | ⟨g, hg, hw⟩
      · rcases (g3 p).1 hp with hp | ⟨s, hs, hp, -⟩
        · exact Or.inl hp
        · exact Or.inr ⟨f, List.mem_cons_self, Wanted.dir hd hs hp⟩
      · exact Or.inr ⟨g, List.mem_cons_of_mem _ hg, hw⟩
    · intro root a f fs a' hd hs ⟨i0, i⟩
      obtain ⟨g1, g2, g3, g4, -⟩ := addUnique_spec e (e.glob (e.abs root f)) a
      refine ⟨Nat.le_trans g2 i0, fun h0 p hp => ?_⟩
      rcases i h0 p hp with hp | ⟨g, hg, hw⟩
      · rcases (g3 p).1 hp with hp | ⟨hp, -⟩
        · exact Or.inl hp
        · exact Or.inr ⟨f, List.mem_cons_self, Wanted.file hd hs hp⟩
      · exact Or.inr ⟨g, List.mem_cons_of_mem _ hg, hw⟩
    · intro root a f fs a' _ _ _ ⟨i0, i⟩
      refine ⟨Nat.le_trans (Nat.le_succ _) i0, fun h0 p hp => ?_⟩
      rcases i h0 p hp with hp | ⟨g, hg, hw⟩
      · exact Or.inl hp
      · exact Or.inr ⟨g, List.mem_cons_of_mem _ hg, hw⟩
    · intro root a a1 f fs a' hd hs ht ⟨j0, j⟩ ⟨i0, i⟩
      refine ⟨Nat.le_trans j0 i0, fun h0 p hp => ?_⟩
      rcases i h0 p hp with hp | ⟨g, hg, hw⟩
      · rcases j (by omega) p hp with hp | ⟨t, htm, g, hg, hw⟩
        · exact Or.inl hp
        · exact Or.inr ⟨f, List.mem_cons_self, Wanted.list hd hs ht htm hg hw⟩
      · exact Or.inr ⟨g, List.mem_cons_of_mem _ hg, hw⟩
    · intro root a f fs a' _ _ _ ⟨i0, i⟩
      refine ⟨i0, fun h0 p hp => ?_⟩
      rcases i h0 p hp with hp | ⟨g, hg, hw⟩
      · exact Or.inl hp
      · exact Or.inr ⟨g, List.mem_cons_of_mem _ hg, hw⟩
    · intro a; exact ⟨Nat.le_refl _, fun _ p hp => Or.inl hp⟩
    · intro a t ts a' _ ⟨i0, i⟩
      refine ⟨i0, fun h0 p hp => ?_⟩
      rcases i h0 p hp with hp | ⟨t', ht', r⟩
      · exact Or.inl hp
      · exact Or.inr ⟨t', List.mem_cons_of_mem _ ht', r⟩
    · intro a t ts a1 a' _ ⟨j0, j⟩ ⟨i0, i⟩
      simp only at j0
      refine ⟨by omega, fun h0 p hp => ?_⟩
      rcases i h0 p hp with hp | ⟨t', ht', r⟩
      · rcases j (by omega) p hp with hp | ⟨g, hg, hw⟩
        · exact Or.inl hp
        · rw [readPathnames_eq t (by omega)] at hg
          exact Or.inr ⟨t, List.mem_cons_self, g, hg, hw⟩
      · exact Or.inr ⟨t', List.mem_cons_of_mem _ ht', r⟩
  exact ⟨fun r a fs a' h => ((key fuel).1 r a fs a' h).2, fun a ts a' h => ((key fuel).2 a ts a' h).2⟩

/-- Entry `f` has been dealt with: its files are in the master list, its list files were read. -/
def Handled (e : Env) (sufs : List Str) (root f : Str) (a : Acc) : Prop :=
  (e.isdir (e.abs root f) = true → ∀ s ∈ sufs, ∀ p ∈ e.globDir (e.abs root f) s, p ∈ a.master) ∧
  (e.isdir (e.abs root f) = false → e.suff f ∈ sufs →
    ∀ p ∈ e.glob (e.abs root f), p ∈ a.master) ∧
  (e.isdir (e.abs root f) = false → e.suff f ∉ sufs → e.suff f = "txt".toList →
    ∀ t ∈ e.glob (e.abs root f), t ∈ a.txt)

theorem Handled.mono {root f : Str} {a b : Acc} (h : Handled e sufs root f a)
    (h1 : ∀ p ∈ a.master, p ∈ b.master) (h2 : ∀ t ∈ a.txt, t ∈ b.txt) :
    Handled e sufs root f b :=
  ⟨fun x s y p z => h1 p (h.1 x s y p z), fun x y p z => h1 p (h.2.1 x y p z),
    fun x y w t z => h2 t (h.2.2 x y w t z)⟩

/-- Completeness: after an error-free traversal every entry is dealt with, and so are the entries
of all list files read during it. -/
theorem list_complete (fuel : Nat) :
    (∀ root a fs a', listInt e sufs fuel root a fs = some a' → 
      ((∀ p ∈ a.master, p ∈ a'.master) ∧ (∀ t ∈ a.txt, t ∈ a'.txt) ∧ a.errs ≤ a'.errs) ∧
      (a'.errs = 0 → (∀ f ∈ fs, Handled e sufs root f a') ∧
        ∀ t ∈ a'.txt, t ∉ a.txt → ∀ g ∈ entriesOf e t, Handled e sufs (e.dirname t) g a')) ∧
    (∀ a ts a', listTxt e sufs fuel a ts = some a' →
      ((∀ p ∈ a.master, p ∈ a'.master) ∧ (∀ t ∈ a.txt, t ∈ a'.txt) ∧ a.errs ≤ a'.errs) ∧
      (a'.errs = 0 → (∀ t ∈ ts, t ∈ a'.txt) ∧
        ∀ t ∈ a'.txt, t ∉ a.txt → ∀ g ∈ entriesOf e t, Handled e sufs (e.dirname t) g a')) := by
  apply list_ind (P := fun root a fs a' => 
      ((∀ p ∈ a.master, p ∈ a'.master) ∧ (∀ t ∈ a.txt, t ∈ a'.txt) ∧ a.errs ≤ a'.errs) ∧
      (a'.errs = 0 → (∀ f ∈ fs, Handled e sufs root f a') ∧
        ∀ t ∈ a'.txt, t ∉ a.txt → ∀ g ∈ entriesOf e t, Handled e sufs (e.dirname t) g a'))
    (Q := fun a ts a' =>
      ((∀ p ∈ a.master, p ∈ a'.master) ∧ (∀ t ∈ a.txt, t ∈ a'.txt) ∧ a.errs ≤ a'.errs) ∧
      (a'.errs = 0 → (∀ t ∈ ts, t ∈ a'.txt) ∧
        ∀ t ∈ a'.txt, t ∉ a.txt → ∀ g ∈ entriesOf e t, Handled e sufs (e.dirname t) g a'))
  · intro root a
    exact ⟨⟨fun _ h => h, fun _ h => h, Nat.le_refl _⟩, fun _ => ⟨by simp, fun t h h' => absurd h h'⟩⟩
  · intro root a f fs a' hd ⟨⟨i1, i2, i3⟩, i⟩
    obtain ⟨g1, g2, g3, g4, g5⟩ := addDir_spec e (e.abs root f) sufs a
    refine ⟨⟨fun p hp => i1 p ((g3 p).2 (Or.inl hp)), fun t ht => i2 t (by rw [g1]; exact ht),
      Nat.le_trans g2 i3⟩, fun h0 => ?_⟩
    obtain ⟨k1, k2⟩ := i h0
    rw [g1] at k2
    refine ⟨?_, k2⟩
    intro f' hf'
    rcases List.mem_cons.1 hf' with rfl | hf'
    · refine ⟨fun _ s hs p hp => i1 p ((g3 p).2 (Or.inr ⟨s, hs, hp, g5 (by omega) s hs p hp⟩)),
        ?_, ?_⟩ <;> (intro hx; rw [hd] at hx; cases hx)
    · exact k1 f' hf'
  · intro root a f fs a' hd hs ⟨⟨i1, i2, i3⟩, i⟩
    obtain ⟨g1, g2, g3, g4, g5⟩ := addUnique_spec e (e.glob (e.abs root f)) a
    refine ⟨⟨fun p hp => i1 p ((g3 p).2 (Or.inl hp)), fun t ht => i2 t (by rw [g1]; exact ht),
      Nat.le_trans g2 i3⟩, fun h0 => ?_⟩
    obtain ⟨k1, k2⟩ := i h0
    rw [g1] at k2
    refine ⟨?_, k2⟩
    intro f' hf'
    rcases List.mem_cons.1 hf' with rfl | hf'
    · refine ⟨?_, fun _ _ p hp => i1 p ((g3 p).2 (Or.inr ⟨hp, g5 (by omega) p hp⟩)),
        fun _ hn => absurd hs hn⟩
      intro hx; rw [hd] at hx; cases hx
    · exact k1 f' hf'
  · intro root a f fs a' hd hs ht ⟨⟨i1, i2, i3⟩, i⟩
    refine ⟨⟨i1, i2, Nat.le_trans (Nat.le_succ _) i3⟩, fun h0 => ?_⟩
    simp only at i3; omega
  · intro root a a1 f fs a' hd hs ht ⟨⟨j1, j2, j3⟩, j⟩ ⟨⟨i1, i2, i3⟩, i⟩
    refine ⟨⟨fun p hp => i1 p (j1 p hp), fun t h => i2 t (j2 t h), Nat.le_trans j3 i3⟩,
      fun h0 => ?_⟩
    obtain ⟨k1, k2⟩ := i h0
    obtain ⟨l1, l2⟩ := j (by omega)
    refine ⟨?_, ?_⟩
    · intro f' hf'
      rcases List.mem_cons.1 hf' with rfl | hf'
      · refine ⟨?_, fun _ hn => absurd hn hs, fun _ _ _ t htm => i2 t (l1 t htm)⟩
        intro hx; rw [hd] at hx; cases hx
      · exact k1 f' hf'
    · intro t htm hn g hg
      by_cases h1 : t ∈ a1.txt
      · exact (l2 t h1 hn g hg).mono i1 i2
      · exact k2 t htm h1 g hg
  · intro root a f fs a' hd hs ht ⟨⟨i1, i2, i3⟩, i⟩
    refine ⟨⟨i1, i2, i3⟩, fun h0 => ?_⟩
    obtain ⟨k1, k2⟩ := i h0
    refine ⟨?_, k2⟩
    intro f' hf'
    rcases List.mem_cons.1 hf' with rfl | hf'
    · refine ⟨?_, fun _ hn => absurd hn hs, fun _ _ hn => absurd hn ht⟩
      intro hx; rw [hd] at hx; cases hx
    · exact k1 f' hf'
  · intro a
    exact ⟨⟨fun _ h => h, fun _ h => h, Nat.le_refl _⟩, fun _ => ⟨by simp, fun t h h' => absurd h h'⟩⟩
  · intro a t ts a' hm ⟨⟨i1, i2, i3⟩, i⟩
    refine ⟨⟨i1, i2, i3⟩, fun h0 => ⟨?_, (i h0).2⟩⟩
    intro t' ht'
    rcases List.mem_cons.1 ht' with rfl | ht'
    · exact i2 _ hm
    · exact (i h0).1 t' ht'
  · intro a t ts a1 a' hm ⟨⟨j1, j2, j3⟩, j⟩ ⟨⟨i1, i2, i3⟩, i⟩
    simp only at j1 j2 j3
    refine ⟨⟨fun p hp => i1 p (j1 p hp), fun t' h => i2 t' (j2 t' (List.mem_append_left _ h)),
      by omega⟩, fun h0 => ?_⟩
    obtain ⟨k1, k2⟩ := i h0
    obtain ⟨l1, l2⟩ := j (by omega)
    rw [readPathnames_eq t (by omega)] at l1
    refine ⟨?_, ?_⟩
    · intro t' ht'
      rcases List.mem_cons.1 ht' with rfl | ht'
      · exact i2 _ (j2 _ (List.mem_append_right _ List.mem_cons_self))
      · exact k1 t' ht'
    · intro t' htm hn g hg
      by_cases h1 : t' ∈ a1.txt
      · by_cases h2 : t' = t
        · subst h2; exact (l1 g hg).mono i1 i2
        · refine (l2 t' h1 ?_ g hg).mono i1 i2
          simp only [List.mem_append, List.mem_singleton]
          rintro (h | h)
          · exact hn h
          · exact h2 h
      · exact k2 t' htm h1 g hg

/-- **C20, duplicate free, sound and complete.**  When create_file_list succeeds, its result has no
path twice and consists of exactly the files denoted by the given entries, directly, through
directories, wildcards, or list files nested to any depth (also cyclically). -/
theorem C20_exact_partial {fuel : Nat} {root : Str} {files L : List Str}
    (h : createFileList e sufs fuel root files = some (some L)) :
    L.Nodup ∧ ∀ p, p ∈ L ↔ ∃ f ∈ files, Wanted e sufs root f p := by
  unfold createFileList at h
  split at h
  · cases h
  · next a ha =>
    split at h
    · next h0 =>
      simp only [Option.some.injEq] at h; subst h
      obtain ⟨m1, -, -, -⟩ := (list_mono fuel).1 _ _ _ _ ha
      refine ⟨m1 List.nodup_nil, fun p => ⟨fun hp => ?_, ?_⟩⟩
      · rcases (list_sound fuel).1 _ _ _ _ ha h0 p hp with hp | hp
        · cases hp
        · exact hp
      · obtain ⟨-, k⟩ := (list_complete fuel).1 _ _ _ _ ha
        obtain ⟨k1, k2⟩ := k h0
        rintro ⟨f, hf, hw⟩
        have hh := k1 f hf
        clear hf ha m1 k k1
        induction hw with
        | dir hd hs hp => exact hh.1 hd _ hs _ hp
        | file hd hs hp => exact hh.2.1 hd hs _ hp
        | list hd hs ht htm hg _ ih => exact ih (k2 _ (hh.2.2 hd hs ht _ htm) (by simp) _ hg)
    · cases h

/-- **C20, only allowed suffixes**, for an expansion `glob` that keeps literal suffixes. -/
theorem C20_suffix {fuel : Nat} {root : Str} {files L : List Str}
    (hg : ∀ r f p, e.suff f ∈ sufs → p ∈ e.glob (e.abs r f) → e.suff p = e.suff f)
    (hd : ∀ d s p, s ∈ sufs → p ∈ e.globDir d s → e.suff p = s)
    (h : createFileList e sufs fuel root files = some (some L)) :
    ∀ p ∈ L, e.suff p ∈ sufs := by
  intro p hp
  obtain ⟨f, -, hw⟩ := ((C20_exact_partial h).2 p).1 hp
  clear hp h
  induction hw with
  | dir _ hs hp => rw [hd _ _ _ hs hp]; exact hs
  | file _ hs hp => rw [hg _ _ _ hs hp]; exact hs
  | list _ _ _ _ _ _ ih => exact ih

theorem list_terminates (U : List Str) (hU : ∀ f, ∀ t ∈ e.glob f, t ∈ U) (fuel : Nat) :
    (∀ root a fs, (U.filter (fun t => !a.txt.contains t)).length ≤ fuel →
      listInt e sufs fuel root a fs ≠ none) ∧
    (∀ a ts, (∀ t ∈ ts, t ∈ U) → (U.filter (fun t => !a.txt.contains t)).length ≤ fuel →
      listTxt e sufs fuel a ts ≠ none) := by
  have le : ∀ (x y : List Str), (∀ t ∈ x, t ∈ y) →
      (U.filter (fun t => !y.contains t)).length ≤ (U.filter (fun t => !x.contains t)).length := by
    intro x y hxy
    rw [← List.countP_eq_length_filter, ← List.countP_eq_length_filter]
    apply List.countP_mono_left
    intro t _ h
    simp only [Bool.not_eq_eq_eq_not, Bool.not_true, List.contains_eq_mem, decide_eq_false_iff_not]
      at h ⊢
    exact fun hx => h (hxy t hx)
  have lt : ∀ (x : List Str) (t : Str), t ∈ U → t ∉ x →
      (U.filter (fun u => !(x ++ [t]).contains u)).length <
        (U.filter (fun u => !x.contains u)).length := by
    intro x t ht hx
    have : ∀ V : List Str, t ∈ V → (V.filter (fun u => !(x ++ [t]).contains u)).length <
        (V.filter (fun u => !x.contains u)).length := by
      intro V hV
      have lev : ∀ V : List Str, (V.filter (fun u => !(x ++ [t]).contains u)).length ≤
          (V.filter (fun u => !x.contains u)).length := by
        intro V
        rw [← List.countP_eq_length_filter, ← List.countP_eq_length_filter]
        apply List.countP_mono_left
        intro t' _ h
        simp at h ⊢; exact h.1
      induction V with
      | nil => cases hV
      | cons v V ih =>
        by_cases hv : v = t
        · subst hv
          simp only [List.filter_cons]
          have h1 : (!(x ++ [v]).contains v) = false := by simp
          have h2 : (!x.contains v) = true := by simpa using hx
          rw [h1, h2]
          have := lev V
          simp only [Bool.false_eq_true, if_false, if_true, List.length_cons]
          omega
        · have hV' : t ∈ V := by
            rcases List.mem_cons.1 hV with h | h
            · exact absurd h.symm hv
            · exact h
          have := ih hV'
          simp only [List.filter_cons]
          have he : (x ++ [t]).contains v = x.contains v := by
            simp [List.contains_eq_mem, hv]
          rw [he]
          cases x.contains v <;> simp only [Bool.not_false, Bool.not_true, if_true, if_false,
            List.length_cons, Bool.false_eq_true] <;> omega
    exact this U ht
  have intOf : ∀ fuel, (∀ ts a, (∀ t ∈ ts, t ∈ U) →
      (U.filter (fun t => !a.txt.contains t)).length ≤ fuel → listTxt e sufs fuel a ts ≠ none) →
      ∀ fs root a, (U.filter (fun t => !a.txt.contains t)).length ≤ fuel →
      listInt e sufs fuel root a fs ≠ none := by
    intro fuel hT fs
    induction fs with
    | nil => intro root a _; rw [listInt]; simp
    | cons f fs ih =>
      intro root a ha
      rw [listInt]
      split
      · exact ih root _ (by rw [(addDir_spec e _ sufs a).1]; exact ha)
      · split
        · exact ih root _ (by rw [(addUnique_spec e _ a).1]; exact ha)
        · split
          · split
            · exact ih root _ ha
            · have := hT (e.glob (e.abs root f)) a (hU _) ha
              split
              · next hn => exact absurd hn this
              · next a1 h1 =>
                apply ih root
                have m := ((list_mono fuel).2 _ _ _ h1).2.2.1
                exact Nat.le_trans (le _ _ m) ha
          · exact ih root _ ha
  induction fuel with
  | zero =>
    have hT : ∀ ts a, (∀ t ∈ ts, t ∈ U) →
        (U.filter (fun t => !a.txt.contains t)).length ≤ 0 → listTxt e sufs 0 a ts ≠ none := by
      intro ts
      induction ts with
      | nil => intro a _ _; rw [listTxt]; simp
      | cons t ts ih =>
        intro a hts ha
        rw [listTxt]
        have hin : a.txt.contains t = true := by
          cases hc : a.txt.contains t with
          | true => rfl
          | false =>
            exfalso
            have : t ∈ U.filter (fun t => !a.txt.contains t) := by
              rw [List.mem_filter]; exact ⟨hts t List.mem_cons_self, by rw [hc]; rfl⟩
            have := List.length_pos_of_mem this
            omega
        rw [if_pos hin]
        exact ih a (fun t' h => hts t' (List.mem_cons_of_mem _ h)) ha
    exact ⟨fun root a fs => intOf 0 hT fs root a, fun a ts => hT ts a⟩
  | succ fuel IH =>
    have hT : ∀ ts a, (∀ t ∈ ts, t ∈ U) →
        (U.filter (fun t => !a.txt.contains t)).length ≤ fuel + 1 →
        listTxt e sufs (fuel + 1) a ts ≠ none := by
      intro ts
      induction ts with
      | nil => intro a _ _; rw [listTxt]; simp
      | cons t ts ih =>
        intro a hts ha
        rw [listTxt]
        split
        · exact ih a (fun t' h => hts t' (List.mem_cons_of_mem _ h)) ha
        · next hc =>
          have hc : t ∉ a.txt := by simpa using hc
          have hlt := lt a.txt t (hts t List.mem_cons_self) hc
          have := IH.1 (e.dirname t)
            ⟨a.master, a.txt ++ [t], a.errs + (readPathnames e t).2⟩ (readPathnames e t).1
            (by simp only; omega)
          split
          · next hn => exact absurd hn this
          · next a1 h1 =>
            apply ih a1 (fun t' h => hts t' (List.mem_cons_of_mem _ h))
            have m := ((list_mono fuel).1 _ _ _ _ h1).2.2.1
            refine Nat.le_trans (le a.txt a1.txt ?_) ha
            exact fun t' h => m t' (List.mem_append_left _ h)
    exact ⟨fun root a fs => intOf (fuel + 1) hT fs root a, fun a ts => hT ts a⟩

/-- **C20, termination.**  If wildcard expansion only yields the finitely many files `U` of the file
system, the expansion ends (with a list or with an error) however the list files are nested. -/
theorem C20_terminates (U : List Str) (hU : ∀ f, ∀ t ∈ e.glob f, t ∈ U) (root : Str)
    (files : List Str) (fuel : Nat) (hf : U.length ≤ fuel) :
    createFileList e sufs fuel root files ≠ none := by
  unfold createFileList
  have := (list_terminates (sufs := sufs) U hU fuel).1 root ⟨[], [], 0⟩ files
    (Nat.le_trans (List.length_filter_le _ _) hf)
  split
  · next hn => exact absurd hn this
  · split <;> simp

/-- **C20 is false for files rather than paths**: absolute paths are not normalised, so two spellings
of the path of one file are both listed. -/
theorem C20_alias_violated (e : Env) (sufs : List Str) (fuel : Nat) (root p q : Str) (hpq : p ≠ q)
    (ident : Str → Nat) (hid : ident p = ident q)
    (hf : ∀ x, x = p ∨ x = q → e.abs root x = x ∧ e.isdir x = false ∧ e.suff x ∈ sufs ∧
      e.glob x = [x] ∧ e.readable x = true) :
    ∃ L, createFileList e sufs fuel root [p, q] = some (some L) ∧ ¬ (L.map ident).Nodup := by
  obtain ⟨p1, p2, p3, p4, p5⟩ := hf p (Or.inl rfl)
  obtain ⟨q1, q2, q3, q4, q5⟩ := hf q (Or.inr rfl)
  refine ⟨[p, q], ?_, ?_⟩
  · unfold createFileList
    have hc : [p].contains q = false := by
      simp [List.contains_eq_mem]; exact fun h => hpq h.symm
    simp [listInt, p1, p2, p3, p4, p5, q1, q2, q3, q4, q5, addUnique, hpq.symm]
  · simp [hid]

/-- Non-vacuity: a directory, a list file that names itself, a comment line and a file. -/
def exEnv : Env :=
  { suff := fun p => if p = "l.txt".toList then "txt".toList else "F90".toList
    abs := fun _ p => p
    isdir := fun p => p = "d".toList
    glob := fun p => [p]
    globDir := fun _ _ => ["d/x.F90".toList, "y.F90".toList]
    readable := fun _ => true
    raw := fun _ => ["# files\n".toList, "  l.txt\n".toList, "\n".toList, "y.F90\n".toList,
      "d".toList]
    dirname := fun _ => []
    absdir := fun _ => [] }

example : createFileList exEnv ["F90".toList] 5 [] ["l.txt".toList, "z.F90".toList] =
    some (some ["y.F90".toList, "d/x.F90".toList, "z.F90".toList]) := by
  simp [createFileList, listInt, listTxt, exEnv, readPathnames, readLines, isPathLine, strip, lstrip,
    rstrip, isWs, addDir, addUnique]

example : ∃ L, createFileList exEnv ["F90".toList] 5 [] ["/a/x.F90".toList, "/a/./x.F90".toList] =
    some (some L) ∧ ¬ (L.map (fun _ => 3)).Nodup :=
  C20_alias_violated exEnv _ _ _ _ _ (by decide) (fun _ => 3) rfl (by
    rintro x (rfl | rfl) <;> refine ⟨rfl, ?_, ?_, rfl, rfl⟩ <;> decide)

end Lists
end Ccpp.Files
