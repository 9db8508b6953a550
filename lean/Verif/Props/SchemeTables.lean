import Verif.Model.SchemeTables
import Verif.Spec.SchemeTables
import Verif.Props.PrebuildArgs
import Verif.Props.MetadataText
import Verif.Props.FrameworkEnv
import Verif.Props.FortranType
/-! # Lemmas for C79: lines and statements -/
namespace Ccpp.ST
open FDecl (Str Blank)

/-! ## Words -/

theorem splitGo_word (w f r : Str) (hf : ∀ c ∈ f, isWs c = false) (hr : ∀ c, r.head? = some c → isWs c = true) (hne : w ++ f ≠ []) :
    splitGo w (f ++ r) = (w ++ f) :: splitGo [] r := by
  induction f generalizing w with
  | nil =>
    rw [List.append_nil] at hne
    have hw : w.isEmpty = false := by simpa using hne
    cases r with
    | nil => simp [splitGo, hw]
    | cons c r =>
      have hc := hr c rfl
      rw [List.nil_append, splitGo, hc, if_pos rfl, hw]
      simp [splitGo, hc]
  | cons c f ih =>
    rw [List.cons_append, splitGo, hf c (by simp), if_neg (by simp), ih (w ++ [c]) (fun x hx => hf x (by simp [hx])) (by simp)]
    simp

theorem splitGo_blank (a s : Str) (ha : Blank a) : splitGo [] (a ++ s) = splitGo [] s := by
  induction a with
  | nil => rfl
  | cons c a ih => rw [List.cons_append, splitGo, ha c (by simp), if_pos rfl]; exact ih fun x hx => ha x (by simp [hx])

theorem words_of {s : Str} {ws : List Str} (h : Words s ws) : words s = ws := by
  unfold words
  induction h with
  | @nil s hb => rw [← List.append_nil s, splitGo_blank s [] hb]; rfl
  | @cons a w r ws ha hw hn hr _ ih =>
    rw [List.append_assoc, splitGo_blank _ _ ha, splitGo_word [] w r hn hr (by simpa using hw), ih]
    rfl

theorem words_exists (s : Str) : ∃ ws, Words s ws := by
  induction hn : s.length using Nat.strongRecOn generalizing s with
  | ind n ih =>
    have h1 : s = s.takeWhile isWs ++ s.dropWhile isWs := (List.takeWhile_append_dropWhile).symm
    have hb : Blank (s.takeWhile isWs) := fun c hc => List.all_eq_true.1 List.all_takeWhile c hc
    cases h2 : s.dropWhile isWs with
    | nil => rw [h2, List.append_nil] at h1; exact ⟨[], .nil (by rw [h1]; exact hb)⟩
    | cons c r =>
      have hc : isWs c = false := by
        have := List.head?_dropWhile_not isWs s
        rw [h2] at this
        simpa using this
      have h3 : r = r.takeWhile (fun x => !isWs x) ++ r.dropWhile (fun x => !isWs x) := (List.takeWhile_append_dropWhile).symm
      have hlen : s.length = (s.takeWhile isWs).length + (r.length + 1) := by
        conv => lhs; rw [h1, h2]
        simp
      have hlen2 : (r.dropWhile fun x => !isWs x).length ≤ r.length := (List.dropWhile_sublist _).length_le
      obtain ⟨ws, hws⟩ := ih _ (by rw [← hn, hlen]; omega) (r.dropWhile fun x => !isWs x) rfl
      refine ⟨(c :: r.takeWhile fun x => !isWs x) :: ws, ?_⟩
      have := Words.cons (a := s.takeWhile isWs) (w := c :: r.takeWhile fun x => !isWs x) hb (by simp) (by
        intro x hx
        rcases List.mem_cons.1 hx with rfl | hx
        · exact hc
        · simpa using List.all_eq_true.1 List.all_takeWhile x hx) (by
        intro x hx
        have h := List.head?_dropWhile_not (fun x => !isWs x) r
        rw [hx] at h
        simpa using h) hws
      rw [List.append_assoc, List.cons_append, ← h3, ← h2, ← h1] at this
      exact this

theorem words_iff (s : Str) (ws : List Str) : words s = ws ↔ Words s ws := by
  constructor
  · rintro rfl
    obtain ⟨ws, h⟩ := words_exists s
    rw [words_of h]; exact h
  · exact words_of

theorem Words.solid {s : Str} {ws : List Str} (h : Words s ws) : ∀ w ∈ ws, w ≠ [] ∧ ∀ c ∈ w, isWs c = false ∧ c ∈ s := by
  induction h with
  | nil _ => simp
  | cons _ h1 h2 _ _ ih =>
    intro x hx
    rcases List.mem_cons.1 hx with rfl | hx
    · exact ⟨h1, fun c hc => ⟨h2 c hc, by simp [hc]⟩⟩
    · exact ⟨(ih x hx).1, fun c hc => ⟨((ih x hx).2 c hc).1, by simp [((ih x hx).2 c hc).2]⟩⟩

/-! ## Continuations -/

theorem rstrip_blank {b : Str} (hb : Blank b) : rstrip b = [] := by
  have := FDecl.rstrip_blank (s := []) hb
  simpa [rstrip] using this

theorem empty_iff (l : Str) : (strip l = [] ∨ strip l = ['&']) ↔ Empty l := by
  constructor
  · obtain ⟨a, b, ha, hb, h⟩ := FDecl.strip_split l
    rintro (e | e)
    · rw [e] at h
      left
      intro c hc
      rw [h] at hc
      simp only [List.append_nil, List.mem_append] at hc
      exact hc.elim (ha c) (hb c)
    · rw [e] at h
      exact .inr ⟨a, b, ha, hb, by rw [h]; simp⟩
  · rintro (h | ⟨a, b, ha, hb, rfl⟩)
    · left
      have := FDecl.strip_core (p := []) (x := []) (q := l) (fun _ h => nomatch h) ⟨fun _ h => (nomatch h), fun _ h => (nomatch h)⟩ h
      simpa using this
    · right
      have := FDecl.strip_core (p := a) (x := ['&']) (q := b) ha ⟨by intro c h; cases h; decide, by intro c h; cases h; decide⟩ hb
      simpa using this

theorem continued_iff {l : Str} (he : ¬Empty l) : (strip l).getLast? = some '&' ↔ Continued l := by
  constructor
  · intro h
    obtain ⟨a, b, _, hb, hl⟩ := FDecl.strip_split l
    obtain ⟨x, hx⟩ := List.getLast?_eq_some_iff.1 h
    rw [hx] at hl
    exact ⟨he, a ++ x, b, hb, by rw [hl]; simp⟩
  · rintro ⟨_, a, b, hb, rfl⟩
    rw [Env.strip_keep (by decide), rstrip_blank hb]
    simp

theorem joinLines_conts {cs : List Str} {t : Str} (h : Conts cs t) (buf : Str) (ls : List Str) :
    joinLines buf (cs ++ ls) = joinLines (buf ++ t) ls := by
  induction h generalizing buf with
  | nil => simp
  | @skip l cs t hl _ ih =>
    have := (empty_iff l).2 hl
    rw [List.cons_append, joinLines, if_pos (by simpa using this), ih]
  | @more l cs t hl _ ih =>
    have h1 : ¬(strip l = [] ∨ strip l = ['&']) := fun h => hl.1 ((empty_iff l).1 h)
    rw [List.cons_append, joinLines, if_neg (by simpa using h1), if_pos ((continued_iff hl.1).2 hl), ih, List.append_assoc]
    rfl

theorem joinLines_logical {ls out : List Str} (h : Logical ls out) : joinLines [] ls = out := by
  induction h with
  | @done ls t h => rw [← List.append_nil ls, joinLines_conts h]; rfl
  | @line cs t l rest out hc he hn _ ih =>
    have h1 : ¬(strip l = [] ∨ strip l = ['&']) := fun h => he ((empty_iff l).1 h)
    rw [joinLines_conts hc, joinLines, if_neg (by simpa using h1), if_neg fun h => hn ((continued_iff he).1 h), ih, List.nil_append]
    rfl

/-- Every file is made of lines. -/
theorem logical_exists (ls : List Str) : ∃ out, Logical ls out := by
  have key : ∀ ls : List Str, ∃ cs t rest, ls = cs ++ rest ∧ Conts cs t ∧ (rest = [] ∨ ∃ l r, rest = l :: r ∧ ¬Empty l ∧ ¬Continued l) := by
    intro ls
    induction ls with
    | nil => exact ⟨[], [], [], rfl, .nil, .inl rfl⟩
    | cons l ls ih =>
      obtain ⟨cs, t, rest, rfl, h1, h2⟩ := ih
      by_cases he : Empty l
      · exact ⟨l :: cs, t, rest, rfl, .skip he h1, h2⟩
      · by_cases hc : Continued l
        · exact ⟨l :: cs, _, rest, rfl, .more hc h1, h2⟩
        · exact ⟨[], [], l :: (cs ++ rest), rfl, .nil, .inr ⟨l, _, rfl, he, hc⟩⟩
  induction hn : ls.length using Nat.strongRecOn generalizing ls with
  | ind n ih =>
    obtain ⟨cs, t, rest, rfl, h1, h2⟩ := key ls
    rcases h2 with rfl | ⟨l, r, rfl, h3, h4⟩
    · rw [List.append_nil]; exact ⟨[], .done h1⟩
    · obtain ⟨out, ho⟩ := ih r.length (by rw [← hn]; simp; omega) r rfl
      exact ⟨_, .line h1 h3 h4 ho⟩

/-! ## Statements -/

theorem words_cut (l : Str) {w : Str} {ws : List Str} (hw : w.head? ≠ some '!') : words (cut l) = w :: ws ↔ Words (codeOf l) (w :: ws) := by
  unfold cut
  split
  · next h =>
    cases l with
    | nil => cases h
    | cons c r =>
      cases h
      constructor
      · intro h
        rw [words_iff] at h
        generalize heq : '!' :: r = z at h
        cases h with
        | @cons a _ r' _ ha hne _ _ _ =>
          exfalso
          cases a with
          | cons x a => 
            simp only [List.cons_append, List.cons.injEq] at heq
            have := ha x (by simp)
            rw [← heq.1] at this; exact absurd this (by decide)
          | nil =>
            cases w with
            | nil => exact hne rfl
            | cons y w =>
              simp only [List.nil_append, List.cons_append, List.cons.injEq] at heq
              exact hw (by rw [← heq.1]; rfl)
      · intro h
        exfalso
        have : codeOf ('!' :: r) = [] := by simp [codeOf]
        rw [this] at h
        have := words_of h
        cases this
  · exact words_iff _ _

theorem head_of_lower {w : Str} {k : String} (h : lower w = k.toList) (hk : k.toList.head? ≠ some '!') : w.head? ≠ some '!' := by
  intro hc
  cases w with
  | nil => cases hc
  | cons c w =>
    cases hc
    rw [← h] at hk
    exact hk (by simp [lower])

theorem modEvent_start (l n : Str) : modEvent l = .start n ↔ ModuleLine l n := by
  unfold modEvent ModuleLine
  constructor
  · intro h
    split at h
    · next w0 w1 ws hw =>
      split at h
      · next h0 =>
        split at h
        · cases h
        · next h1 =>
          cases h
          exact ⟨w0, ws, (words_cut l (head_of_lower h0 (by decide))).1 hw, h0, h1⟩
      · split at h <;> cases h
    · cases h
  · rintro ⟨w, ws, hw, h0, h1⟩
    rw [(words_cut l (head_of_lower h0 (by decide))).2 hw]
    simp only
    rw [if_pos h0, if_neg h1]

theorem modEvent_stop (l : Str) (t : Option Str) : modEvent l = .stop t ↔ EndModule l t := by
  unfold modEvent EndModule
  constructor
  · intro h
    split at h
    · next w0 w1 ws hw =>
      split at h
      · split at h <;> cases h
      · split at h
        · next h1 =>
          cases h
          exact ⟨w0, w1, ws, (words_cut l (head_of_lower h1.1 (by decide))).1 hw, h1.1, h1.2, rfl⟩
        · cases h
    · cases h
  · rintro ⟨w, v, ws, hw, h0, h1, rfl⟩
    rw [(words_cut l (head_of_lower h0 (by decide))).2 hw]
    simp only
    rw [if_neg (by rw [h0]; decide), if_pos ⟨h0, h1⟩]

theorem noModule_event {l : Str} (h : NoModule l) : modEvent l = .none := by
  cases e : modEvent l with
  | start n => exact absurd ((modEvent_start l n).1 e) (h.1 n)
  | stop t => exact absurd ((modEvent_stop l t).1 e) (h.2 t)
  | none => rfl

theorem takeWhile_paren (n : Str) (v : Str) (h : '(' ∉ n ∧ (v = n ∨ ∃ r, v = n ++ '(' :: r)) : v.takeWhile (fun c => c != '(') = n := by
  have hn : ∀ (n r : Str), '(' ∉ n → (r = [] ∨ r.head? = some '(') → (n ++ r).takeWhile (fun c => c != '(') = n := by
    intro n r hn hr
    induction n with
    | nil =>
      rcases hr with rfl | hr
      · rfl
      · cases r with
        | nil => rfl
        | cons c r => cases hr; simp
    | cons c n ih =>
      have hc : c ≠ '(' := fun e => hn (by simp [e])
      rw [List.cons_append, List.takeWhile_cons, if_pos (by simpa using hc), ih fun e => hn (by simp [e])]
  obtain ⟨h1, rfl | ⟨r, rfl⟩⟩ := h
  · have := hn v [] h1 (.inl rfl)
    simpa using this
  · exact hn n ('(' :: r) h1 (.inr rfl)

theorem takeWhile_paren' (v : Str) : '(' ∉ v.takeWhile (fun c => c != '(') ∧
    (v = v.takeWhile (fun c => c != '(') ∨ ∃ r, v = v.takeWhile (fun c => c != '(') ++ '(' :: r) := by
  refine ⟨fun h => ?_, ?_⟩
  · have := List.all_eq_true.1 List.all_takeWhile _ h
    simp at this
  · have h := List.takeWhile_append_dropWhile (p := fun c => c != '(') (l := v)
    cases e : v.dropWhile (fun c => c != '(') with
    | nil => left; rw [e, List.append_nil] at h; exact h.symm
    | cons c r =>
      right
      have hc := List.head?_dropWhile_not (fun c => c != '(') v
      rw [e] at hc
      have hc : c = '(' := by simpa using hc
      rw [e, hc] at h
      exact ⟨r, h.symm⟩

theorem subEvent_start (l n : Str) : subEvent l = .start n ↔ Opens l n := by
  unfold subEvent Opens
  constructor
  · intro h
    split at h
    · next w0 w1 ws hw =>
      split at h
      · next h0 =>
        cases h
        obtain ⟨a, b⟩ := takeWhile_paren' w1
        exact ⟨w0, w1, ws, (words_cut l (head_of_lower h0 (by decide))).1 hw, h0, a, b⟩
      · split at h <;> cases h
    · split at h <;> cases h
    · cases h
  · rintro ⟨w, v, ws, hw, h0, h1⟩
    rw [(words_cut l (head_of_lower h0 (by decide))).2 hw]
    simp only
    rw [if_pos h0, takeWhile_paren n v h1]

theorem subEvent_stop (l : Str) (t : Option Str) : subEvent l = .stop t ↔ Closes l t := by
  unfold subEvent Closes
  constructor
  · intro h
    split at h
    · next w0 w1 ws hw =>
      split at h
      · cases h
      · split at h
        · next h1 =>
          cases h
          exact ⟨w0, w1, ws, (words_cut l (head_of_lower h1.1 (by decide))).1 hw, h1.1, h1.2, rfl⟩
        · cases h
    · split at h <;> cases h
    · cases h
  · rintro ⟨w, v, ws, hw, h0, h1, rfl⟩
    rw [(words_cut l (head_of_lower h0 (by decide))).2 hw]
    simp only
    rw [if_neg (by rw [h0]; decide), if_pos ⟨h0, h1⟩]

theorem subEvent_bare (l : Str) : subEvent l = .bare ↔ BareEnd l := by
  unfold subEvent BareEnd
  constructor
  · intro h
    split at h
    · split at h
      · cases h
      · split at h <;> cases h
    · next w hw =>
      split at h
      · next h0 => exact ⟨w, (words_cut l (head_of_lower h0 (by decide))).1 hw, h0⟩
      · cases h
    · cases h
  · rintro ⟨w, hw, h0⟩
    rw [(words_cut l (head_of_lower h0 (by decide))).2 hw]
    simp only
    rw [if_pos h0]

theorem opens_noModule {l n : Str} (h : Opens l n) : NoModule l := by
  obtain ⟨w, v, ws, hw, h0, _⟩ := h
  refine ⟨fun n' ⟨w', ws', hw', h0', _⟩ => ?_, fun t ⟨w', v', ws', hw', h0', _⟩ => ?_⟩
  · have := (words_of hw).symm.trans (words_of hw')
    cases this
    rw [h0] at h0'; exact absurd h0' (by decide)
  · have := (words_of hw).symm.trans (words_of hw')
    cases this
    rw [h0] at h0'; exact absurd h0' (by decide)

theorem closes_noModule {l : Str} {t : Option Str} (h : Closes l t) : NoModule l := by
  obtain ⟨w, v, ws, hw, h0, h1, _⟩ := h
  refine ⟨fun n' ⟨w', ws', hw', h0', _⟩ => ?_, fun t ⟨w', v', ws', hw', _, h1', _⟩ => ?_⟩
  · have := (words_of hw).symm.trans (words_of hw')
    cases this
    rw [h0] at h0'; exact absurd h0' (by decide)
  · have := (words_of hw).symm.trans (words_of hw')
    cases this
    rw [h1] at h1'; exact absurd h1' (by decide)

theorem module_noSub {l n : Str} (h : ModuleLine l n) : subEvent l = .none := by
  obtain ⟨w, ws, hw, h0, _⟩ := h
  unfold subEvent
  rw [(words_cut l (head_of_lower h0 (by decide))).2 hw]
  simp only
  rw [if_neg (by rw [h0]; decide), if_neg fun h => by rw [h0] at h; exact absurd h.1 (by decide)]

/-! ## Names -/

theorem schemeOf_none (n : Str) : schemeOf n = none ↔ ∀ s, ¬EntryName n s := by
  unfold schemeOf EntryName
  rw [List.findSome?_eq_none_iff]
  constructor
  · rintro h s ⟨st, hs, rfl⟩
    have := h st hs
    simp at this
  · intro h st hs
    split
    · next hsuf =>
      rw [List.isSuffixOf_iff_suffix] at hsuf
      obtain ⟨p, hp⟩ := hsuf
      exact absurd ⟨st, hs, hp.symm⟩ (h p)
    · rfl

theorem take_entry (m s : Str) : (m ++ '_' :: s).take ((m ++ '_' :: s).length - (s.length + 1)) = m := by
  rw [List.length_append, List.length_cons, Nat.add_sub_cancel]
  simp

theorem schemeOf_entry {m s : Str} (hs : s ∈ stageNames) (ht : (s = "init".toList ∨ s = "finalize".toList) → ¬"_timestep".toList <:+ m) :
    schemeOf (m ++ '_' :: s) = some m := by
  have hsuf : ∀ (a b : Str), ('_' :: a).isSuffixOf (m ++ '_' :: b) = true ↔ ('_' :: a) <:+ (m ++ '_' :: b) := fun a b => List.isSuffixOf_iff_suffix
  unfold schemeOf stages
  simp only [stageNames, List.mem_cons, List.not_mem_nil, or_false] at hs
  -- a stage that ends a text ending in another stage of the same last letters is the same, or the longer of the two
  have other : ∀ a b : Str, ('_' :: a).length ≤ ('_' :: b).length → ¬('_' :: a) <:+ ('_' :: b) → ¬('_' :: a).isSuffixOf (m ++ '_' :: b) = true := by
    intro a b hl hn h
    rw [hsuf] at h
    exact hn (List.suffix_of_suffix_length_le h ⟨m, rfl⟩ hl)
  have longer : ∀ a b : Str, ¬"_timestep".toList <:+ m → a = "timestep".toList ++ '_' :: b → ¬('_' :: a).isSuffixOf (m ++ '_' :: b) = true := by
    rintro a b hm rfl h
    rw [hsuf] at h
    obtain ⟨p, hp⟩ := h
    have h2 : p ++ "_timestep".toList ++ '_' :: b = m ++ '_' :: b := by rw [← hp]; simp
    exact hm ⟨p, List.append_cancel_right h2⟩
  have long2 : ∀ a b : Str, a.getLast? ≠ b.getLast? → a ≠ [] → b ≠ [] → ¬('_' :: a).isSuffixOf (m ++ '_' :: b) = true := by
    intro a b hl ha hb h
    rw [hsuf] at h
    obtain ⟨p, hp⟩ := h
    have := congrArg List.getLast? hp
    cases a with
    | nil => exact ha rfl
    | cons x a =>
      cases b with
      | nil => exact hb rfl
      | cons y b =>
        rw [List.getLast?_append, List.getLast?_append, List.getLast?_cons_cons, List.getLast?_cons_cons] at this
        rw [List.getLast?_cons (a := x), List.getLast?_cons (a := y)] at this hl
        exact hl (by simpa using this)
  have yes : ∀ b : Str, ('_' :: b).isSuffixOf (m ++ '_' :: b) = true := fun b => by rw [hsuf]; exact ⟨m, rfl⟩
  rcases hs with rfl | rfl | rfl | rfl | rfl
  · rw [List.findSome?_cons, if_pos (yes _), take_entry]
  · rw [List.findSome?_cons, if_neg (long2 _ _ (by decide) (by decide) (by decide)), List.findSome?_cons, if_pos (yes _), take_entry]
  · rw [List.findSome?_cons, if_neg (longer "timestep_init".toList "init".toList (ht (.inl rfl)) (by decide)), List.findSome?_cons,
      if_neg (long2 _ _ (by decide) (by decide) (by decide)), List.findSome?_cons, if_pos (yes _), take_entry]
  · rw [List.findSome?_cons, if_neg (long2 _ _ (by decide) (by decide) (by decide)), List.findSome?_cons,
      if_neg (long2 _ _ (by decide) (by decide) (by decide)), List.findSome?_cons,
      if_neg (long2 _ _ (by decide) (by decide) (by decide)), List.findSome?_cons, if_pos (yes _), take_entry]
  · rw [List.findSome?_cons, if_neg (long2 _ _ (by decide) (by decide) (by decide)), List.findSome?_cons,
      if_neg (longer "timestep_finalize".toList "finalize".toList (ht (.inr rfl)) (by decide)), List.findSome?_cons,
      if_neg (long2 _ _ (by decide) (by decide) (by decide)), List.findSome?_cons, if_neg (long2 _ _ (by decide) (by decide) (by decide)),
      List.findSome?_cons, if_pos (yes _), take_entry]

end Ccpp.ST
