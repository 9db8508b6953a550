import Verif.Spec.PrebuildRefs
import Verif.Props.PrebuildConv
/-!
# The local names of the host are analysed correctly
-/
namespace Ccpp.PA
open PB (Str IsName IsLiteral joined)

/-! ## The automaton of references -/

/-- The character is not special -/
def plainC (c : Char) : Bool := !(special.contains c)

/-- Where we are in a reference -/
inductive Q | start | inName | closed | percent
deriving DecidableEq

/-- One character; the number counts open parentheses -/
def next (q : Q) (d : Nat) (c : Char) : Option (Q × Nat) :=
  if plainC c then (if q = .closed then none else some (.inName, d))
  else if c = '(' then (if q = .inName then some (.start, d + 1) else none)
  else if c = ')' then (if q = .percent then none else match d with | 0 => none | d + 1 => some (.closed, d))
  else if c = '%' then (if q = .inName ∨ q = .closed then some (.percent, d) else none)
  else (if q = .percent then none else match d with | 0 => none | d + 1 => some (.start, d + 1))

/-- A text -/
def aut : Q → Nat → Str → Option (Q × Nat)
  | q, d, [] => some (q, d)
  | q, d, c :: s => (next q d c).bind fun r => aut r.1 r.2 s

theorem aut_append (a b : Str) : ∀ (q : Q) (d : Nat), aut q d (a ++ b) = (aut q d a).bind fun r => aut r.1 r.2 b := by
  induction a with
  | nil => intro q d; rfl
  | cons c a ih =>
    intro q d
    simp only [List.cons_append, aut]
    cases h : next q d c with
    | none => rfl
    | some r => simp only [Option.bind_some]; exact ih r.1 r.2

theorem name_plain {c : Char} (h : c.isAlphanum = true ∨ c = '_') : plainC c = true := by
  rcases h with h | rfl
  · unfold plainC special
    simp only [Bool.not_eq_true', List.contains_eq_mem, decide_eq_false_iff_not, List.mem_cons, List.not_mem_nil, or_false, not_or]
    refine ⟨?_, ?_, ?_, ?_, ?_⟩ <;> rintro rfl <;> exact absurd h (by decide)
  · decide

theorem IsName.plain {x : Str} (h : IsName x) : ∀ c ∈ x, plainC c = true := fun c hc => name_plain (h.2 c hc)

theorem IsName.ne_nil {x : Str} (h : IsName x) : x ≠ [] := by
  obtain ⟨⟨c, r, rfl, _⟩, _⟩ := h; simp

theorem IsLiteral.plain {x : Str} (h : IsLiteral x) : ∀ c ∈ x, plainC c = true := by
  obtain ⟨sg, d, hs, rfl, hd⟩ := h
  intro c hc
  rcases List.mem_append.1 hc with hc | hc
  · rcases hs with rfl | rfl | rfl
    · cases hc
    · rw [List.mem_singleton.1 hc]; decide
    · rw [List.mem_singleton.1 hc]; decide
  · exact name_plain (Or.inl (by simp [Char.isAlphanum, hd.2 c hc]))

theorem IsLiteral.ne_nil {x : Str} (h : IsLiteral x) : x ≠ [] := by
  obtain ⟨sg, d, hs, rfl, hd⟩ := h
  simp [hd.1]

theorem aut_plain : ∀ {x : Str}, (∀ c ∈ x, plainC c = true) → x ≠ [] → ∀ {q : Q}, q ≠ .closed → ∀ d, aut q d x = some (.inName, d)
  | [], _, h, _, _, _ => absurd rfl h
  | [c], hx, _, q, hq, d => by simp [aut, next, hx c (by simp), hq]
  | c :: e :: x, hx, _, q, hq, d => by
    have := aut_plain (x := e :: x) (fun y hy => hx y (List.mem_cons_of_mem _ hy)) (by simp) (q := .inName) (by decide) d
    show ((next q d c).bind fun r => aut r.1 r.2 (e :: x)) = _
    rw [show next q d c = some (.inName, d) by simp [next, hx c (by simp), hq]]
    exact this

/-- A text that the automaton reads from the start of a bound -/
def Bound (s : Str) : Prop := ∀ d, ∃ q, q ≠ .percent ∧ aut .start d s = some (q, d)

theorem bounds_aut {c : Char} (hc : c = ',' ∨ c = ':') : ∀ {bs : List Str}, bs ≠ [] → (∀ b ∈ bs, ∀ d, ∃ q, q ≠ .percent ∧ aut .start (d + 1) b = some (q, d + 1)) →
    ∀ d, ∃ q, q ≠ .percent ∧ aut .start (d + 1) (joined c bs) = some (q, d + 1)
  | [], h, _, _ => absurd rfl h
  | [b], _, h, d => h b (by simp) d
  | b :: b' :: bs, _, h, d => by
    obtain ⟨q, hq, hb⟩ := h b (by simp) d
    obtain ⟨q', hq', hb'⟩ := bounds_aut hc (bs := b' :: bs) (by simp) (fun x hx => h x (List.mem_cons_of_mem _ hx)) d
    refine ⟨q', hq', ?_⟩
    show aut .start (d + 1) (b ++ [c] ++ joined c (b' :: bs)) = _
    rw [List.append_assoc, aut_append, hb]
    show ((next q (d + 1) c).bind fun r => aut r.1 r.2 (joined c (b' :: bs))) = _
    have : next q (d + 1) c = some (.start, d + 1) := by
      rcases hc with rfl | rfl
      · simp [next, show plainC ',' = false by decide, hq]
      · simp [next, show plainC ':' = false by decide, hq]
    rw [this]
    exact hb'

/-- What the automaton does with a reference -/
def RefAut (s : Str) : Prop := ∀ q d, q = .start ∨ q = .percent → ∃ q', (q' = .inName ∨ q' = .closed) ∧ aut q d s = some (q', d)

theorem isRef_aut {s : Str} (h : IsRef s) : RefAut s := by
  refine IsRef.rec (motive_1 := fun s _ => RefAut s) (motive_2 := fun b _ => ∀ d, ∃ q, q ≠ .percent ∧ aut .start d b = some (q, d))
    ?_ ?_ ?_ ?_ ?_ ?_ h
  · intro x hx q d hq
    exact ⟨.inName, Or.inl rfl, aut_plain (IsName.plain hx) (IsName.ne_nil hx) (by rcases hq with rfl | rfl <;> decide) d⟩
  · intro x is hx hne hbs _ ih q d hq
    refine ⟨.closed, Or.inr rfl, ?_⟩
    rw [aut_append, aut_plain (IsName.plain hx) (IsName.ne_nil hx) (by rcases hq with rfl | rfl <;> decide) d]
    show ((next .inName d '(').bind fun r => aut r.1 r.2 _) = _
    rw [show next .inName d '(' = some (.start, d + 1) by simp [next, show plainC '(' = false by decide]]
    show aut .start (d + 1) (joined ',' (is.map (joined ':')) ++ [')']) = _
    rw [aut_append]
    obtain ⟨q', hq', he⟩ := bounds_aut (c := ',') (Or.inl rfl) (bs := is.map (joined ':')) (by simpa using hne) (by
      intro b hb d
      obtain ⟨bs, hbsm, rfl⟩ := List.mem_map.1 hb
      exact bounds_aut (c := ':') (Or.inr rfl) (hbs bs hbsm) (fun b hb d => ih bs hbsm b hb (d + 1)) d) d
    rw [he]
    simp [aut, next, show plainC ')' = false by decide, hq']
  · intro a b _ _ iha ihb q d hq
    obtain ⟨q1, h1, e1⟩ := iha q d hq
    obtain ⟨q2, h2, e2⟩ := ihb .percent d (Or.inr rfl)
    refine ⟨q2, h2, ?_⟩
    rw [aut_append, e1]
    show ((next q1 d '%').bind fun r => aut r.1 r.2 b) = _
    have : next q1 d '%' = some (.percent, d) := by
      rcases h1 with rfl | rfl <;> simp [next, show plainC '%' = false by decide]
    rw [this]
    exact e2
  · intro d; exact ⟨.start, by decide, rfl⟩
  · intro b hb d
    exact ⟨.inName, by decide, aut_plain (IsLiteral.plain hb) (IsLiteral.ne_nil hb) (by decide) d⟩
  · intro b _ ih d
    obtain ⟨q', h', e⟩ := ih .start d (Or.inl rfl)
    exact ⟨q', by rcases h' with rfl | rfl <;> decide, e⟩

/-! ## The runs of plain characters that stand at the begin of an index -/

/-- A run that ends -/
def emit : Option Str → Bool → List (Str × Bool)
  | none, _ => []
  | some r, b => if r = [] then [] else [(r, b)]

/-- The characters after which a bound begins -/
def opens (c : Char) : Bool := c == '(' || c == ',' || c == ':'

/-- All runs that begin after such a character, and whether a component or an index follows -/
def scan : Option Str → Str → List (Str × Bool)
  | acc, [] => emit acc false
  | acc, c :: s => if plainC c then scan (acc.map (· ++ [c])) s
    else emit acc (c == '%' || c == '(') ++ scan (if opens c then some [] else none) s

/-- The runs that end in a text, and the run at its end -/
def pass : Option Str → Str → List (Str × Bool) × Option Str
  | acc, [] => ([], acc)
  | acc, c :: s => if plainC c then pass (acc.map (· ++ [c])) s
    else let r := pass (if opens c then some [] else none) s
      (emit acc (c == '%' || c == '(') ++ r.1, r.2)

theorem scan_append (a b : Str) : ∀ acc, scan acc (a ++ b) = (pass acc a).1 ++ scan (pass acc a).2 b := by
  induction a with
  | nil => intro acc; rfl
  | cons c a ih =>
    intro acc
    simp only [List.cons_append, scan, pass]
    by_cases h : plainC c = true
    · simp only [h, if_true]; exact ih _
    · simp only [h, if_false, Bool.false_eq_true, List.append_assoc]; rw [ih]

/-- After a text that begins with a special character or is empty -/
def Ends (v : Str) : Prop := v = [] ∨ ∃ d r, v = d :: r ∧ plainC d = false

theorem scan_ends {v : Str} (h : Ends v) (acc : Option Str) : ∃ b, scan acc v = emit acc b ++ scan none v := by
  rcases h with rfl | ⟨d, r, rfl, hd⟩
  · exact ⟨false, by simp [scan, emit]⟩
  · refine ⟨d == '%' || d == '(', ?_⟩
    simp [scan, hd, emit]

/-- One index group is removed -/
theorem scan_remove (u w v : Str) (hv : Ends v) : ∃ b, ∀ p,
    (p ∈ scan none (u ++ '(' :: (w ++ ')' :: v)) ↔ p ∈ (pass none u).1 ∨ p ∈ emit (pass none u).2 true ∨ p ∈ scan (some []) w ∨ p ∈ scan none v) ∧
    (p ∈ scan none (u ++ v) ↔ p ∈ (pass none u).1 ∨ p ∈ emit (pass none u).2 b ∨ p ∈ scan none v) := by
  obtain ⟨b, hb⟩ := scan_ends hv (pass none u).2
  refine ⟨b, fun p => ⟨?_, ?_⟩⟩
  · rw [scan_append]
    have e1 : scan (pass none u).2 ('(' :: (w ++ ')' :: v)) = emit (pass none u).2 true ++ scan (some []) (w ++ ')' :: v) := by
      simp [scan, show plainC '(' = false by decide, show opens '(' = true by decide]
    have e2 : ∀ acc, scan acc (w ++ ')' :: v) = scan acc w ++ scan none v := by
      intro acc
      rw [scan_append]
      have := scan_append w [] acc
      rw [List.append_nil] at this
      rw [this, List.append_assoc]
      congr 1
    rw [e1, e2]
    simp [List.mem_append]
  · rw [scan_append, hb]
    simp [List.mem_append]

/-- A run: characters, and what is at the begin of an index -/
theorem scan_mem : ∀ (s : Str) (acc : Option Str) (x : Str), (∃ b, (x, b) ∈ scan acc s) ↔
    ((∃ r, acc = some r ∧ ∃ p v, s = p ++ v ∧ (∀ c ∈ p, plainC c = true) ∧ Ends v ∧ x = r ++ p ∧ x ≠ []) ∨
     (x ≠ [] ∧ (∀ c ∈ x, plainC c = true) ∧ ∃ u c v, s = u ++ c :: (x ++ v) ∧ opens c = true ∧ Ends v))
  | [], acc, x => by
    constructor
    · rintro ⟨b, h⟩
      cases acc with
      | none => cases h
      | some r =>
        simp only [scan, emit] at h
        split at h
        · cases h
        · rename_i hr
          rw [List.mem_singleton] at h
          have hx : x = r := congrArg Prod.fst h
          exact Or.inl ⟨r, rfl, [], [], rfl, (fun _ hc => nomatch hc), Or.inl rfl, by simp [hx], by rw [hx]; exact hr⟩
    · rintro (⟨r, rfl, p, v, hs, _, _, hx, hne⟩ | ⟨_, _, u, c, v, hs, _⟩)
      · have hp := (List.append_eq_nil_iff.1 hs.symm).1
        rw [hp, List.append_nil] at hx
        subst hx
        exact ⟨false, by simp [scan, emit, hne]⟩
      · cases u <;> cases hs
  | c :: s, acc, x => by
    by_cases hc : plainC c = true
    · have hop : ∀ u e t, c :: s = u ++ e :: t → opens e = true → ∃ u', u = c :: u' ∧ s = u' ++ e :: t := by
        intro u e t h ho
        cases u with
        | nil =>
          simp only [List.nil_append, List.cons.injEq] at h
          rw [← h.1] at ho
          exfalso
          unfold opens at ho
          simp only [Bool.or_eq_true, beq_iff_eq] at ho
          rcases ho with (rfl | rfl) | rfl <;> exact absurd hc (by decide)
        | cons y u =>
          simp only [List.cons_append, List.cons.injEq] at h
          exact ⟨u, by rw [h.1], h.2⟩
      rw [scan, if_pos hc, scan_mem s _ x]
      constructor
      · rintro (⟨r, hr, p, v, rfl, hp, hv, hx, hne⟩ | ⟨hne, hpl, u, e, v, rfl, he, hv⟩)
        · cases acc with
          | none => cases hr
          | some r0 =>
            simp only [Option.map_some, Option.some.injEq] at hr
            subst hr
            refine Or.inl ⟨r0, rfl, c :: p, v, rfl, ?_, hv, by rw [hx]; simp, hne⟩
            intro y hy
            rcases List.mem_cons.1 hy with rfl | hy
            · exact hc
            · exact hp y hy
        · exact Or.inr ⟨hne, hpl, c :: u, e, v, rfl, he, hv⟩
      · rintro (⟨r, rfl, p, v, hs, hp, hv, hx, hne⟩ | ⟨hne, hpl, u, e, v, hs, he, hv⟩)
        · cases p with
          | nil =>
            simp only [List.nil_append] at hs
            rcases hv with rfl | ⟨d, t, rfl, hd⟩
            · cases hs
            · simp only [List.cons.injEq] at hs
              rw [← hs.1, hc] at hd; cases hd
          | cons y p =>
            simp only [List.cons_append, List.cons.injEq] at hs
            obtain ⟨rfl, rfl⟩ := hs
            exact Or.inl ⟨r ++ [c], rfl, p, v, rfl, fun z hz => hp z (List.mem_cons_of_mem _ hz), hv, by rw [hx]; simp, hne⟩
        · obtain ⟨u', rfl, rfl⟩ := hop u e _ hs he
          exact Or.inr ⟨hne, hpl, u', e, v, rfl, he, hv⟩
    · have hc' : plainC c = false := by simpa using hc
      rw [scan, if_neg hc]
      constructor
      · rintro ⟨b, h⟩
        rcases List.mem_append.1 h with h | h
        · cases acc with
          | none => cases h
          | some r =>
            simp only [emit] at h
            split at h
            · cases h
            · rename_i hr
              rw [List.mem_singleton] at h
              have hx : x = r := congrArg Prod.fst h
              exact Or.inl ⟨r, rfl, [], c :: s, rfl, (fun _ hc => nomatch hc), Or.inr ⟨c, s, rfl, hc'⟩, by simp [hx], by rw [hx]; exact hr⟩
        · rcases (scan_mem s _ x).1 ⟨b, h⟩ with ⟨r, hr, p, v, rfl, hp, hv, hx, hne⟩ | ⟨hne, hpl, u, e, v, rfl, he, hv⟩
          · by_cases ho : opens c = true
            · rw [if_pos ho] at hr
              cases hr
              have hx' : x = p := by simpa using hx
              subst hx'
              exact Or.inr ⟨hne, hp, [], c, v, rfl, ho, hv⟩
            · rw [if_neg ho] at hr; cases hr
          · exact Or.inr ⟨hne, hpl, c :: u, e, v, rfl, he, hv⟩
      · rintro (⟨r, rfl, p, v, hs, hp, hv, hx, hne⟩ | ⟨hne, hpl, u, e, v, hs, he, hv⟩)
        · cases p with
          | nil =>
            have hx' : x = r := by simpa using hx
            refine ⟨c == '%' || c == '(', List.mem_append_left _ ?_⟩
            simp [emit, ← hx', hne]
          | cons y p =>
            simp only [List.cons_append, List.cons.injEq] at hs
            have := hp y (by simp)
            rw [← hs.1] at this
            exact absurd this hc
        · cases u with
          | nil =>
            simp only [List.nil_append, List.cons.injEq] at hs
            obtain ⟨rfl, rfl⟩ := hs
            obtain ⟨b, hb⟩ := (scan_mem (x ++ v) (some []) x).2 (Or.inl ⟨[], rfl, x, v, rfl, hpl, hv, rfl, hne⟩)
            exact ⟨b, List.mem_append_right _ (by rw [if_pos he]; exact hb)⟩
          | cons y u =>
            simp only [List.cons_append, List.cons.injEq] at hs
            obtain ⟨rfl, rfl⟩ := hs
            obtain ⟨b, hb⟩ := (scan_mem (u ++ e :: (x ++ v)) (if opens c then some [] else none) x).2 (Or.inr ⟨hne, hpl, u, e, v, rfl, he, hv⟩)
            exact ⟨b, List.mem_append_right _ hb⟩

/-! ## The runs of a reference -/

/-- A run is a name, or a literal that is not followed by an index or a component -/
def Good (p : Str × Bool) : Prop := IsName p.1 ∨ (IsLiteral p.1 ∧ p.2 = false)

/-- The runs at the begin are good -/
def Fine (acc : Option Str) (s v : Str) : Prop := ∀ p ∈ scan acc (s ++ v), Good p ∨ p ∈ scan none v

theorem pass_plain : ∀ {x : Str}, (∀ c ∈ x, plainC c = true) → ∀ acc, pass acc x = ([], acc.map (· ++ x))
  | [], _, acc => by cases acc <;> simp [pass]
  | c :: x, h, acc => by
    rw [pass, if_pos (h c (by simp)), pass_plain fun y hy => h y (List.mem_cons_of_mem _ hy)]
    cases acc <;> simp

theorem scan_plain {x v : Str} (hx : ∀ c ∈ x, plainC c = true) (acc : Option Str) : scan acc (x ++ v) = scan (acc.map (· ++ x)) v := by
  rw [scan_append, pass_plain hx]; rfl

theorem fine_plain {x v : Str} (hx : ∀ c ∈ x, plainC c = true) (hv : Ends v) {acc : Option Str} (ha : acc = none ∨ acc = some [])
    (hg : ∀ b, scan (some x) v = emit (some x) b ++ scan none v → Good (x, b)) : Fine acc x v := by
  intro p hp
  rw [scan_plain hx] at hp
  rcases ha with rfl | rfl
  · exact Or.inr hp
  · simp only [Option.map_some, List.nil_append] at hp
    obtain ⟨b, hb⟩ := scan_ends hv (some x)
    rw [hb] at hp
    rcases List.mem_append.1 hp with hp | hp
    · simp only [emit] at hp
      split at hp
      · cases hp
      · rw [List.mem_singleton.1 hp]; exact Or.inl (hg b hb)
    · exact Or.inr hp

theorem fine_bounds {c : Char} (hc : c = ',' ∨ c = ':') : ∀ {bs : List Str}, bs ≠ [] →
    (∀ b ∈ bs, ∀ d r, d = ',' ∨ d = ':' ∨ d = ')' → Fine (some []) b (d :: r)) →
    ∀ d r, d = ',' ∨ d = ':' ∨ d = ')' → Fine (some []) (joined c bs) (d :: r)
  | [], h, _, _, _, _ => absurd rfl h
  | [b], _, h, d, r, hd => h b (by simp) d r hd
  | b :: b' :: bs, _, h, d, r, hd => by
    intro p hp
    have e : joined c (b :: b' :: bs) ++ d :: r = b ++ c :: (joined c (b' :: bs) ++ d :: r) := by
      show b ++ [c] ++ joined c (b' :: bs) ++ d :: r = _
      simp
    rw [e] at hp
    rcases h b (by simp) c _ (by rcases hc with rfl | rfl <;> simp) p hp with hg | hp
    · exact Or.inl hg
    · have e2 : scan none (c :: (joined c (b' :: bs) ++ d :: r)) = scan (some []) (joined c (b' :: bs) ++ d :: r) := by
        rcases hc with rfl | rfl
        · simp [scan, show plainC ',' = false by decide, show opens ',' = true by decide, emit]
        · simp [scan, show plainC ':' = false by decide, show opens ':' = true by decide, emit]
      rw [e2] at hp
      exact fine_bounds hc (by simp) (fun x hx => h x (List.mem_cons_of_mem _ hx)) d r hd p hp

theorem isRef_fine {s : Str} (h : IsRef s) : ∀ acc, acc = none ∨ acc = some [] → ∀ v, Ends v → Fine acc s v := by
  refine IsRef.rec (motive_1 := fun s _ => ∀ acc, acc = none ∨ acc = some [] → ∀ v, Ends v → Fine acc s v)
    (motive_2 := fun b _ => ∀ d r, d = ',' ∨ d = ':' ∨ d = ')' → Fine (some []) b (d :: r)) ?_ ?_ ?_ ?_ ?_ ?_ h
  · intro x hx acc ha v hv
    exact fine_plain (IsName.plain hx) hv ha fun _ _ => Or.inl hx
  · intro x is hx hne hbs _ ih acc ha v hv p hp
    have e : x ++ '(' :: (joined ',' (is.map (joined ':')) ++ [')']) ++ v = x ++ '(' :: (joined ',' (is.map (joined ':')) ++ ')' :: v) := by simp
    rw [e] at hp
    rcases fine_plain (IsName.plain hx) (v := '(' :: (joined ',' (is.map (joined ':')) ++ ')' :: v)) (Or.inr ⟨_, _, rfl, by decide⟩) ha
      (fun _ _ => Or.inl hx) p hp with hg | hp
    · exact Or.inl hg
    · have e2 : scan none ('(' :: (joined ',' (is.map (joined ':')) ++ ')' :: v)) = scan (some []) (joined ',' (is.map (joined ':')) ++ ')' :: v) := by
        simp [scan, show plainC '(' = false by decide, show opens '(' = true by decide, emit]
      rw [e2] at hp
      have := fine_bounds (c := ',') (Or.inl rfl) (bs := is.map (joined ':')) (by simpa using hne) (by
        intro b hb d r hd
        obtain ⟨bs, hbsm, rfl⟩ := List.mem_map.1 hb
        exact fine_bounds (c := ':') (Or.inr rfl) (hbs bs hbsm) (fun b hb d r hd => ih bs hbsm b hb d r hd) d r hd) ')' v (by simp) p hp
      rcases this with hg | hp
      · exact Or.inl hg
      · right
        have e3 : scan none (')' :: v) = scan none v := by simp [scan, show plainC ')' = false by decide, show opens ')' = false by decide, emit]
        rw [e3] at hp; exact hp
  · intro a b _ _ iha ihb acc ha v hv p hp
    have e : a ++ '%' :: b ++ v = a ++ '%' :: (b ++ v) := by simp
    rw [e] at hp
    rcases iha acc ha ('%' :: (b ++ v)) (Or.inr ⟨_, _, rfl, by decide⟩) p hp with hg | hp
    · exact Or.inl hg
    · have e2 : scan none ('%' :: (b ++ v)) = scan none (b ++ v) := by
        simp [scan, show plainC '%' = false by decide, show opens '%' = false by decide, emit]
      rw [e2] at hp
      exact ihb none (Or.inl rfl) v hv p hp
  · intro d r hd p hp
    right
    rw [List.nil_append] at hp
    have hpl : plainC d = false := by rcases hd with rfl | rfl | rfl <;> decide
    simp only [scan, hpl, Bool.false_eq_true, if_false, emit, if_true, List.nil_append] at hp ⊢
    exact hp
  · intro b hb d r hd
    have hpl : plainC d = false := by rcases hd with rfl | rfl | rfl <;> decide
    refine fine_plain (IsLiteral.plain hb) (Or.inr ⟨d, r, rfl, hpl⟩) (Or.inr rfl) fun fl hfl => Or.inr ⟨hb, ?_⟩
    have hne := IsLiteral.ne_nil hb
    simp only [scan, hpl, Bool.false_eq_true, if_false, emit, hne, List.nil_append, List.append_cancel_right_eq, List.cons.injEq, Prod.mk.injEq, and_true, true_and] at hfl
    rw [← hfl]
    rcases hd with rfl | rfl | rfl <;> rfl
  · intro b _ ih d r hd
    have hpl : plainC d = false := by rcases hd with rfl | rfl | rfl <;> decide
    exact ih (some []) (Or.inr rfl) (d :: r) (Or.inr ⟨d, r, rfl, hpl⟩)

theorem isRef_good {s : Str} (h : IsRef s) : ∀ p ∈ scan none s, Good p := by
  intro p hp
  rcases isRef_fine h none (Or.inl rfl) [] (Or.inl rfl) p (by simpa using hp) with hg | hp
  · exact hg
  · cases hp

/-! ## One round -/

/-- What stays true of the text: the automaton reads it, and the runs are good -/
structure Inv (s : Str) : Prop where
  reads : ∃ q, aut .start 0 s = some (q, 0)
  good : ∀ p ∈ scan none s, Good p

/-- A text that is read after a parenthesis is also read after a name -/
theorem aut_closed : ∀ {v : Str} {d : Nat} {r : Q × Nat}, aut .closed d v = some r → Ends v ∧ ∃ q, aut .inName d v = some (q, r.2)
  | [], d, r, h => ⟨Or.inl rfl, by simp only [aut, Option.some.injEq] at h; exact ⟨.inName, by rw [← h]; rfl⟩⟩
  | c :: v, d, r, h => by
    have hc : plainC c = false := by
      cases hp : plainC c with
      | false => rfl
      | true => simp [aut, next, hp] at h
    refine ⟨Or.inr ⟨c, v, rfl, hc⟩, ?_⟩
    have hn : next .closed d c = none ∨ next .closed d c = next .inName d c := by
      unfold next
      rw [hc]
      by_cases h1 : c = '('
      · left; simp [h1]
      · right; simp [h1]
    rcases hn with hn | hn
    · rw [aut, hn] at h; cases h
    · rw [aut, hn] at h
      exact ⟨r.1, by rw [aut, h]⟩

/-- Without parentheses nothing happens to the depth -/
theorem aut_keep : ∀ {w : Str} {q : Q} {d : Nat} {r : Q × Nat}, '(' ∉ w → ')' ∉ w → aut q d w = some r → r.2 = d := by
  intro w
  induction w with
  | nil => intro q d r _ _ h; cases h; rfl
  | cons c w ih =>
    intro q d r h1 h2 h
    simp only [List.mem_cons, not_or] at h1 h2
    rw [aut] at h
    cases hn : next q d c with
    | none => rw [hn] at h; cases h
    | some r' =>
      rw [hn] at h
      have hd : r'.2 = d := by
        unfold next at hn
        have a1 : c ≠ '(' := fun e => h1.1 e.symm
        have a2 : c ≠ ')' := fun e => h2.1 e.symm
        simp only [a1, a2, if_false] at hn
        split at hn
        · split at hn
          · cases hn
          · cases hn; rfl
        · split at hn
          · split at hn
            · cases hn; rfl
            · cases hn
          · split at hn
            · cases hn
            · cases d with
              | zero => cases hn
              | succ d => cases hn; rfl
      rw [← hd]
      exact ih h1.2 h2.2 h

/-- One index group can be removed -/
theorem Inv.remove {u w v : Str} (hw : '(' ∉ w) (hw' : ')' ∉ w) (h : Inv (u ++ '(' :: (w ++ ')' :: v))) :
    Inv (u ++ v) ∧ Ends v ∧ ∃ d r, aut .start (d + 1) w = some r := by
  obtain ⟨⟨q, hq⟩, hg⟩ := h
  rw [aut_append] at hq
  cases h1 : aut .start 0 u with
  | none => rw [h1] at hq; cases hq
  | some r1 =>
    obtain ⟨q1, d1⟩ := r1
    rw [h1] at hq
    have hq : aut q1 d1 ('(' :: (w ++ ')' :: v)) = some (q, 0) := hq
    rw [aut] at hq
    have hq1 : q1 = .inName := by
      cases hn : decide (q1 = .inName) with
      | true => simpa using hn
      | false =>
        have : q1 ≠ .inName := by simpa using hn
        simp [next, show plainC '(' = false by decide, this] at hq
    subst hq1
    rw [show next .inName d1 '(' = some (.start, d1 + 1) by simp [next, show plainC '(' = false by decide]] at hq
    have hq : aut .start (d1 + 1) (w ++ ')' :: v) = some (q, 0) := hq
    rw [aut_append] at hq
    cases h2 : aut .start (d1 + 1) w with
    | none => rw [h2] at hq; cases hq
    | some r2 =>
      obtain ⟨q2, d2⟩ := r2
      have hd2 : d2 = d1 + 1 := aut_keep hw hw' h2
      subst hd2
      rw [h2] at hq
      have hq : aut q2 (d1 + 1) (')' :: v) = some (q, 0) := hq
      rw [aut] at hq
      have hnx : next q2 (d1 + 1) ')' = some (.closed, d1) := by
        cases hn : decide (q2 = .percent) with
        | true => simp [next, show plainC ')' = false by decide, of_decide_eq_true hn] at hq
        | false =>
          have : q2 ≠ .percent := by simpa using hn
          simp [next, show plainC ')' = false by decide, this]
      rw [hnx] at hq
      have hq : aut .closed d1 v = some (q, 0) := hq
      obtain ⟨hv, q3, h3⟩ := aut_closed hq
      refine ⟨⟨⟨q3, by rw [aut_append, h1]; exact h3⟩, ?_⟩, hv, d1, _, h2⟩
      obtain ⟨b, hb⟩ := scan_remove u w v hv
      intro p hp
      rcases (hb p).2.1 hp with hp | hp | hp
      · exact hg p ((hb p).1.2 (Or.inl hp))
      · -- the run at the end of u was followed by an index, so it is a name
        cases ha : (pass none u).2 with
        | none => rw [ha] at hp; cases hp
        | some r =>
          rw [ha] at hp
          simp only [emit] at hp
          split at hp
          · cases hp
          · rename_i hr
            rw [List.mem_singleton.1 hp]
            have := hg (r, true) ((hb (r, true)).1.2 (Or.inr (Or.inl (by rw [ha]; simp [emit, hr]))))
            rcases this with hn | ⟨_, hf⟩
            · exact Or.inl hn
            · cases hf
      · exact hg p ((hb p).1.2 (Or.inr (Or.inr (Or.inr hp))))

/-! ## The variables of an index group -/

theorem split_ind {c : Char} {M : Str → Prop} (hnone : ∀ w, c ∉ w → M w) (hcons : ∀ y t, c ∉ y → M t → M (y ++ c :: t)) : ∀ (w : Str), M w := by
  intro w
  induction hn : w.length using Nat.strongRecOn generalizing w with
  | _ n ih =>
    subst hn
    by_cases hc : c ∈ w
    · obtain ⟨y, t, rfl, hy⟩ := List.eq_append_cons_of_mem hc
      exact hcons y t hy (ih t.length (by simp; omega) t rfl)
    · exact hnone w hc

theorem split_flat {c : Char} {f : Str → List α} (hf : ∀ y t, c ∉ y → f (y ++ c :: t) = f y ++ f t) (w : Str) :
    f w = ((PB.splitOn c w).map f).flatten := by
  refine split_ind (c := c) (M := fun w => f w = ((PB.splitOn c w).map f).flatten) ?_ ?_ w
  · intro w hw; rw [PB.splitOn_none hw]; simp
  · intro y t hy ih; rw [PB.splitOn_append hy, hf y t hy, ih]; simp

theorem split_all {c : Char} {P : Str → Prop} (hP : ∀ y t, c ∉ y → P (y ++ c :: t) → P y ∧ P t) {w : Str} (hw : P w) :
    ∀ y ∈ PB.splitOn c w, P y ∧ c ∉ y := by
  refine split_ind (c := c) (M := fun w => P w → ∀ y ∈ PB.splitOn c w, P y ∧ c ∉ y) ?_ ?_ w hw
  · intro w hc hw y hy
    rw [PB.splitOn_none hc, List.mem_singleton] at hy
    rw [hy]; exact ⟨hw, hc⟩
  · intro y t hy ih h z hz
    obtain ⟨h1, h2⟩ := hP y t hy h
    rw [PB.splitOn_append hy] at hz
    rcases List.mem_cons.1 hz with rfl | hz
    · exact ⟨h1, hy⟩
    · exact ih h2 z hz

theorem scan_sep {c : Char} (hc : c = ',' ∨ c = ':') (y t : Str) (acc : Option Str) : scan acc (y ++ c :: t) = scan acc y ++ scan (some []) t := by
  rw [scan_append]
  have := scan_append y [] acc
  rw [List.append_nil] at this
  rw [this, List.append_assoc]
  congr 1
  rcases hc with rfl | rfl
  · simp [scan, show plainC ',' = false by decide, show opens ',' = true by decide]
  · simp [scan, show plainC ':' = false by decide, show opens ':' = true by decide]

/-- A text without parentheses that is read in an index -/
def Piece (w : Str) : Prop := '(' ∉ w ∧ ')' ∉ w ∧ (∃ d r, aut .start (d + 1) w = some r) ∧ ∀ p ∈ scan (some []) w, Good p

theorem Piece.split {c : Char} (hc : c = ',' ∨ c = ':') {y t : Str} (h : Piece (y ++ c :: t)) : Piece y ∧ Piece t := by
  obtain ⟨h1, h2, ⟨d, r, h3⟩, h4⟩ := h
  simp only [List.mem_append, List.mem_cons, not_or] at h1 h2
  rw [scan_sep hc] at h4
  rw [aut_append] at h3
  cases h5 : aut .start (d + 1) y with
  | none => rw [h5] at h3; cases h3
  | some r1 =>
    obtain ⟨q1, d1⟩ := r1
    have hd : d1 = d + 1 := aut_keep h1.1 h2.1 h5
    subst hd
    rw [h5] at h3
    have h3 : aut q1 (d + 1) (c :: t) = some r := h3
    rw [aut] at h3
    have hn : next q1 (d + 1) c = none ∨ next q1 (d + 1) c = some (.start, d + 1) := by
      rcases hc with rfl | rfl
      · by_cases hq : q1 = .percent
        · left; simp [next, show plainC ',' = false by decide, hq]
        · right; simp [next, show plainC ',' = false by decide, hq]
      · by_cases hq : q1 = .percent
        · left; simp [next, show plainC ':' = false by decide, hq]
        · right; simp [next, show plainC ':' = false by decide, hq]
    rcases hn with hn | hn
    · rw [hn] at h3; cases h3
    · rw [hn] at h3
      exact ⟨⟨h1.1, h2.1, ⟨d, _, h5⟩, fun p hp => h4 p (List.mem_append_left _ hp)⟩,
        ⟨h1.2.2, h2.2.2, ⟨d, _, h3⟩, fun p hp => h4 p (List.mem_append_right _ hp)⟩⟩

/-- The variable of one bound -/
def boundItem (x : Str) : Option Str :=
  if x = [] then none
  else if '%' ∈ x then some (x.takeWhile (· != '%'))
  else if PB.isInt x then none else some x

theorem plain_of {c : Char} (h1 : c ≠ '(') (h2 : c ≠ ')') (h3 : c ≠ ',') (h4 : c ≠ ':') (h5 : c ≠ '%') : plainC c = true := by
  unfold plainC special
  simp [h1, h2, h3, h4, h5]

theorem scan_quiet : ∀ {t : Str}, (∀ c ∈ t, opens c = false) → scan none t = []
  | [], _ => rfl
  | c :: t, h => by
    have ih := scan_quiet (t := t) fun d hd => h d (List.mem_cons_of_mem _ hd)
    rw [scan]
    split
    · exact ih
    · rw [h c (by simp)]; simpa [emit] using ih

theorem boundItem_iff {y : Str} (h : Piece y) (h1 : ',' ∉ y) (h2 : ':' ∉ y) (x : Str) :
    boundItem y = some x ↔ IsName x ∧ ∃ b, (x, b) ∈ scan (some []) y := by
  obtain ⟨hp1, hp2, ⟨d, r, hr⟩, hg⟩ := h
  unfold boundItem
  by_cases hy : y = []
  · subst hy
    simp [scan, emit]
  · rw [if_neg hy]
    by_cases hpc : '%' ∈ y
    · rw [if_pos hpc]
      obtain ⟨p, t, rfl, hp⟩ := List.eq_append_cons_of_mem hpc
      simp only [List.mem_append, List.mem_cons, not_or] at hp1 hp2 h1 h2
      have hpl : ∀ c ∈ p, plainC c = true := fun c hc =>
        plain_of (fun e => hp1.1 (e ▸ hc)) (fun e => hp2.1 (e ▸ hc)) (fun e => h1.1 (e ▸ hc)) (fun e => h2.1 (e ▸ hc)) (fun e => hp (e ▸ hc))
      have hne : p ≠ [] := by
        rintro rfl
        simp [aut, next, show plainC '%' = false by decide] at hr
      have hq : ∀ c ∈ t, opens c = false := by
        intro c hc
        unfold opens
        simp only [Bool.or_eq_false_iff, beq_eq_false_iff_ne, ne_eq]
        exact ⟨⟨fun e => hp1.2.2 (e ▸ hc), fun e => h1.2.2 (e ▸ hc)⟩, fun e => h2.2.2 (e ▸ hc)⟩
      have hs : scan (some []) (p ++ '%' :: t) = [(p, true)] := by
        rw [scan_plain hpl]
        simp [scan, show plainC '%' = false by decide, show opens '%' = false by decide, scan_quiet hq, emit, hne]
      rw [hs] at hg ⊢
      have ht : (p ++ '%' :: t).takeWhile (· != '%') = p := by
        rw [List.takeWhile_append_of_pos (fun c hc => by simp; rintro rfl; exact hp hc)]
        simp
      rw [ht]
      have hn : IsName p := by
        rcases hg (p, true) (by simp) with h | ⟨_, h⟩
        · exact h
        · cases h
      simp only [Option.some.injEq, List.mem_singleton, Prod.mk.injEq]
      constructor
      · rintro rfl; exact ⟨hn, true, rfl, rfl⟩
      · rintro ⟨_, _, h, _⟩; exact h.symm
    · rw [if_neg hpc]
      have hpl : ∀ c ∈ y, plainC c = true := fun c hc =>
        plain_of (fun e => hp1 (e ▸ hc)) (fun e => hp2 (e ▸ hc)) (fun e => h1 (e ▸ hc)) (fun e => h2 (e ▸ hc)) (fun e => hpc (e ▸ hc))
      have hs : scan (some []) y = [(y, false)] := by
        have := scan_plain (v := []) hpl (some [])
        rw [List.append_nil] at this
        rw [this]
        simp [scan, emit, hy]
      rw [hs] at hg ⊢
      simp only [List.mem_singleton, Prod.mk.injEq]
      rcases hg (y, false) (by simp) with h | ⟨h, _⟩
      · have h : IsName y := h
        rw [if_neg (by simp [PB.isInt_name h])]
        simp only [Option.some.injEq]
        constructor
        · rintro rfl; exact ⟨h, false, rfl, rfl⟩
        · rintro ⟨_, _, h, _⟩; exact h.symm
      · have h : IsLiteral y := h
        rw [if_pos (PB.isInt_literal h)]
        constructor
        · intro h'; cases h'
        · rintro ⟨hn, _, rfl, _⟩
          have := PB.isInt_name hn
          rw [PB.isInt_literal h] at this; cases this

theorem indexItems_iff {w : Str} (h : Piece w) (x : Str) : x ∈ indexItems w ↔ IsName x ∧ ∃ b, (x, b) ∈ scan (some []) w := by
  have e : scan (some []) w = (((PB.splitOn ',' w).map (PB.splitOn ':')).flatten.map (scan (some []))).flatten := by
    rw [split_flat (c := ',') (f := scan (some [])) (fun y t _ => scan_sep (Or.inl rfl) y t _) w]
    rw [List.map_flatten, List.flatten_flatten, List.map_map, List.map_map]
    congr 1
    apply List.map_congr_left
    intro z _
    exact split_flat (c := ':') (f := scan (some [])) (fun y t _ => scan_sep (Or.inr rfl) y t _) z
  have hall : ∀ y ∈ ((PB.splitOn ',' w).map (PB.splitOn ':')).flatten, Piece y ∧ ',' ∉ y ∧ ':' ∉ y := by
    intro y hy
    rw [List.mem_flatten] at hy
    obtain ⟨l, hl, hyl⟩ := hy
    obtain ⟨z, hz, rfl⟩ := List.mem_map.1 hl
    have hz' := split_all (c := ',') (P := Piece) (fun y t _ hp => hp.split (Or.inl rfl)) h z hz
    have hy' := split_all (c := ':') (P := fun y => Piece y ∧ ',' ∉ y) (fun y t _ hp => by
      obtain ⟨a, b⟩ := hp.1.split (Or.inr rfl)
      have hc := hp.2
      simp only [List.mem_append, List.mem_cons, not_or] at hc
      exact ⟨⟨a, hc.1⟩, ⟨b, hc.2.2⟩⟩) hz' y hyl
    exact ⟨hy'.1.1, hy'.1.2, hy'.2⟩
  rw [e]
  show x ∈ ((((PB.splitOn ',' w).map (PB.splitOn ':')).flatten).filterMap boundItem) ↔ _
  rw [List.mem_filterMap]
  constructor
  · rintro ⟨y, hy, hx⟩
    obtain ⟨hp, hc1, hc2⟩ := hall y hy
    obtain ⟨hn, b, hb⟩ := (boundItem_iff hp hc1 hc2 x).1 hx
    exact ⟨hn, b, List.mem_flatten.2 ⟨_, List.mem_map_of_mem hy, hb⟩⟩
  · rintro ⟨hn, b, hb⟩
    obtain ⟨l, hl, hbl⟩ := List.mem_flatten.1 hb
    obtain ⟨y, hy, rfl⟩ := List.mem_map.1 hl
    obtain ⟨hp, hc1, hc2⟩ := hall y hy
    exact ⟨y, hy, (boundItem_iff hp hc1 hc2 x).2 ⟨hn, b, hbl⟩⟩

/-! ## The loop -/

theorem innerGo_eq : ∀ (s pre : Str) (w : Option Str) {u w' v : Str}, (∀ x, w = some x → '(' ∉ x ∧ ')' ∉ x) → innerGo pre w s = some (u, w', v) →
    '(' ∉ w' ∧ ')' ∉ w' ∧ pre ++ (match w with | none => s | some x => '(' :: (x ++ s)) = u ++ '(' :: (w' ++ ')' :: v)
  | [], pre, w, u, w', v, _, h => by cases w <;> cases h
  | c :: s, pre, w, u, w', v, hw, h => by
    rw [innerGo.eq_def] at h
    simp only [] at h
    split at h
    · rename_i hc
      subst hc
      cases w with
      | none =>
        have := innerGo_eq s pre (some []) (fun x hx => by cases hx; simp) h
        exact this
      | some x =>
        have := innerGo_eq s (pre ++ '(' :: x) (some []) (fun x hx => by cases hx; simp) h
        refine ⟨this.1, this.2.1, ?_⟩
        rw [← this.2.2]; simp
    · rename_i hc1
      split at h
      · rename_i hc
        subst hc
        cases w with
        | none => cases h
        | some x =>
          cases h
          exact ⟨(hw _ rfl).1, (hw _ rfl).2, rfl⟩
      · rename_i hc2
        cases w with
        | none =>
          have := innerGo_eq s (pre ++ [c]) none (fun x hx => by cases hx) h
          refine ⟨this.1, this.2.1, ?_⟩
          rw [← this.2.2]; simp
        | some x =>
          have hx := hw x rfl
          have := innerGo_eq s pre (some (x ++ [c])) (fun y hy => by
            cases hy
            simp only [List.mem_append, List.mem_singleton, not_or]
            exact ⟨⟨hx.1, fun e => hc1 e.symm⟩, ⟨hx.2, fun e => hc2 e.symm⟩⟩) h
          refine ⟨this.1, this.2.1, ?_⟩
          rw [← this.2.2]; simp

/-- There is an inner group -/
theorem innerGo_some : ∀ (s pre : Str) (w : Option Str) (q : Q) (d : Nat) {r : Q}, aut q d s = some (r, 0) →
    (w = none ∧ d = 0 ∧ '(' ∈ s) ∨ (w.isSome ∧ 0 < d) → ∃ t, innerGo pre w s = some t
  | [], pre, w, q, d, r, h, hw => by
    rcases hw with ⟨_, _, h⟩ | ⟨_, hd⟩
    · cases h
    · simp only [aut, Option.some.injEq, Prod.mk.injEq] at h
      omega
  | c :: s, pre, w, q, d, r, h, hw => by
    rw [aut] at h
    cases hn : next q d c with
    | none => rw [hn] at h; cases h
    | some r1 =>
      obtain ⟨q1, d1⟩ := r1
      rw [hn] at h
      have h : aut q1 d1 s = some (r, 0) := h
      rw [innerGo.eq_def]
      simp only []
      by_cases hc : c = '('
      · subst hc
        rw [if_pos rfl]
        have hd1 : d1 = d + 1 := by
          simp only [next, show plainC '(' = false by decide, Bool.false_eq_true, if_false, if_true] at hn
          split at hn
          · cases hn; rfl
          · cases hn
        cases w with
        | none => exact innerGo_some s pre (some []) q1 d1 h (Or.inr ⟨rfl, by omega⟩)
        | some x => exact innerGo_some s _ (some []) q1 d1 h (Or.inr ⟨rfl, by omega⟩)
      · rw [if_neg hc]
        by_cases hc2 : c = ')'
        · subst hc2
          rw [if_pos rfl]
          cases w with
          | some x => exact ⟨_, rfl⟩
          | none =>
            rcases hw with ⟨_, hd, _⟩ | ⟨hw, _⟩
            · subst hd
              simp only [next, show plainC ')' = false by decide, Bool.false_eq_true, if_false, hc] at hn
              simp at hn
            · cases hw
        · rw [if_neg hc2]
          have hd1 : d1 = d := aut_keep (w := [c]) (q := q) (d := d) (r := (q1, d1)) (by simp; exact fun e => hc e.symm) (by simp; exact fun e => hc2 e.symm)
            (by simp [aut, hn])
          cases w with
          | none =>
            refine innerGo_some s _ none q1 d1 h (Or.inl ?_)
            rcases hw with ⟨_, hd, hm⟩ | ⟨hw, _⟩
            · refine ⟨rfl, by omega, ?_⟩
              rcases List.mem_cons.1 hm with e | hm
              · exact absurd e.symm hc
              · exact hm
            · cases hw
          | some x =>
            refine innerGo_some s _ (some (x ++ [c])) q1 d1 h (Or.inr ⟨rfl, ?_⟩)
            rcases hw with ⟨hw, _⟩ | ⟨_, hd⟩
            · cases hw
            · omega

/-- Groups `t` are removed one after the other -/
inductive Rem (t : Str) : Str → Str → Prop
  | refl (s : Str) : Rem t s s
  | step {u v s' : Str} : Rem t (u ++ v) s' → Rem t (u ++ (t ++ v)) s'

theorem removeAll_skip (t : Str) : ∀ (k : Nat) (s : Str), removeAll t k s = removeAll t 0 (s.drop k)
  | 0, s => by simp
  | k + 1, [] => by simp [removeAll]
  | k + 1, c :: s => by rw [removeAll, removeAll_skip t k s]; rfl

theorem removeAll_rem {t : Str} (ht : t ≠ []) : ∀ (n : Nat) (a s : Str), s.length ≤ n → Rem t (a ++ s) (a ++ removeAll t 0 s)
  | _, a, [], _ => Rem.refl _
  | 0, a, c :: s, h => by simp at h
  | n + 1, a, c :: s, h => by
    rw [removeAll]
    split
    · rename_i hp
      obtain ⟨v, hv⟩ := List.isPrefixOf_iff_prefix.1 hp
      rw [removeAll_skip]
      have hd : s.drop (t.length - 1) = v := by
        cases t with
        | nil => exact absurd rfl ht
        | cons x t =>
          simp only [List.cons_append, List.cons.injEq] at hv
          rw [← hv.2]
          simp
      rw [hd, ← hv]
      refine Rem.step (removeAll_rem ht n a v ?_)
      have := congrArg List.length hv
      simp only [List.length_append, List.length_cons] at this
      have htl : 0 < t.length := List.length_pos_iff.2 ht
      simp at h
      omega
    · have := removeAll_rem ht n (a ++ [c]) s (by simpa using h)
      simpa using this

theorem removeAll_le {t : Str} (ht : t ≠ []) : ∀ (n : Nat) (s : Str), s.length ≤ n → (removeAll t 0 s).length ≤ s.length
  | _, [], _ => by simp [removeAll]
  | 0, c :: s, h => by simp at h
  | n + 1, c :: s, h => by
    simp only [List.length_cons, Nat.add_le_add_iff_right] at h
    rw [removeAll]
    split
    · rw [removeAll_skip]
      have := removeAll_le ht n (s.drop (t.length - 1)) (by simp; omega)
      simp at this ⊢
      omega
    · have := removeAll_le ht n s h
      simp; omega

/-- A removal shortens the text -/
theorem removeAll_lt {t : Str} (ht : t ≠ []) (v : Str) : ∀ (u : Str), (removeAll t 0 (u ++ (t ++ v))).length < (u ++ (t ++ v)).length
  | [] => by
    cases t with
    | nil => exact absurd rfl ht
    | cons c t =>
      show (removeAll (c :: t) 0 (c :: (t ++ v))).length < _
      rw [removeAll, if_pos (List.isPrefixOf_iff_prefix.2 (show c :: t <+: c :: (t ++ v) from ⟨v, rfl⟩)), removeAll_skip]
      have := removeAll_le ht _ ((t ++ v).drop ((c :: t).length - 1)) (Nat.le_refl _)
      simp at this ⊢
      omega
  | c :: u => by
    show (removeAll t 0 (c :: (u ++ (t ++ v)))).length < (c :: (u ++ (t ++ v))).length
    rw [removeAll]
    split
    · rw [removeAll_skip]
      have := removeAll_le ht _ ((u ++ (t ++ v)).drop (t.length - 1)) (Nat.le_refl _)
      simp only [List.length_drop, List.length_cons] at this ⊢
      omega
    · have := removeAll_lt ht v u
      simp only [List.length_cons]
      omega

/-! ## The rounds together -/

/-- The names that a run is -/
def Names (acc : Option Str) (s x : Str) : Prop := IsName x ∧ ∃ b, (x, b) ∈ scan acc s

theorem emit_any {a : Option Str} {x : Str} {b c : Bool} (h : (x, b) ∈ emit a c) (d : Bool) : (x, d) ∈ emit a d := by
  cases a with
  | none => cases h
  | some r =>
    simp only [emit] at h ⊢
    split at h
    · cases h
    · rename_i hr
      rw [if_neg hr]
      have : x = r := congrArg Prod.fst (List.mem_singleton.1 h)
      simp [this]

theorem names_remove (u w v : Str) (hv : Ends v) (x : Str) :
    Names none (u ++ '(' :: (w ++ ')' :: v)) x ↔ Names none (u ++ v) x ∨ Names (some []) w x := by
  obtain ⟨b, hb⟩ := scan_remove u w v hv
  unfold Names
  constructor
  · rintro ⟨hn, fl, h⟩
    rcases (hb (x, fl)).1.1 h with h | h | h | h
    · exact Or.inl ⟨hn, fl, (hb _).2.2 (Or.inl h)⟩
    · exact Or.inl ⟨hn, b, (hb _).2.2 (Or.inr (Or.inl (emit_any h b)))⟩
    · exact Or.inr ⟨hn, fl, h⟩
    · exact Or.inl ⟨hn, fl, (hb _).2.2 (Or.inr (Or.inr h))⟩
  · rintro (⟨hn, fl, h⟩ | ⟨hn, fl, h⟩)
    · rcases (hb (x, fl)).2.1 h with h | h | h
      · exact ⟨hn, fl, (hb _).1.2 (Or.inl h)⟩
      · exact ⟨hn, true, (hb _).1.2 (Or.inr (Or.inl (emit_any h true)))⟩
      · exact ⟨hn, fl, (hb _).1.2 (Or.inr (Or.inr (Or.inr h)))⟩
    · exact ⟨hn, fl, (hb _).1.2 (Or.inr (Or.inr (Or.inl h)))⟩

theorem takeWhile_ends {v : Str} (hv : Ends v) (u : Str) : (u ++ v).takeWhile plainC = u.takeWhile plainC := by
  have h0 : v.takeWhile plainC = [] := by
    rcases hv with rfl | ⟨d, r, rfl, hd⟩
    · rfl
    · simp [List.takeWhile, hd]
  induction u with
  | nil => simpa using h0
  | cons c u ih =>
    simp only [List.cons_append, List.takeWhile]
    split
    · rw [ih]
    · rfl

theorem takeWhile_all {p : Char → Bool} : ∀ {s : Str}, (∀ c ∈ s, p c = true) → s.takeWhile p = s
  | [], _ => rfl
  | c :: s, h => by rw [List.takeWhile_cons_of_pos (h c (by simp)), takeWhile_all fun d hd => h d (List.mem_cons_of_mem _ hd)]

/-- What a round keeps -/
structure Keeps (w s s' : Str) : Prop where
  inv : Inv s'
  more : ∀ x, Names none s x → Names none s' x ∨ Names (some []) w x
  less : ∀ x, Names none s' x → Names none s x
  root : s'.takeWhile plainC = s.takeWhile plainC

theorem rem_keeps {w t : Str} (hw : '(' ∉ w) (hw' : ')' ∉ w) (ht : t = '(' :: (w ++ [')'])) {s s' : Str} (h : Rem t s s') (hi : Inv s) : Keeps w s s' := by
  induction h with
  | refl s => exact ⟨hi, fun _ h => Or.inl h, fun _ h => h, rfl⟩
  | @step u v s' _ ih =>
    have e : u ++ (t ++ v) = u ++ '(' :: (w ++ ')' :: v) := by rw [ht]; simp
    rw [e] at hi ⊢
    obtain ⟨h1, h2, _⟩ := hi.remove hw hw'
    have k := ih h1
    refine ⟨k.inv, ?_, ?_, ?_⟩
    · intro x hx
      rcases (names_remove u w v h2 x).1 hx with hx | hx
      · exact k.more x hx
      · exact Or.inr hx
    · intro x hx
      exact (names_remove u w v h2 x).2 (Or.inl (k.less x hx))
    · rw [k.root, takeWhile_ends h2 u, takeWhile_ends (Or.inr ⟨_, _, rfl, by decide⟩) u]

/-- At the end -/
theorem inv_flat : ∀ {s : Str} {q : Q} {r : Q}, '(' ∉ s → aut q 0 s = some (r, 0) → ∀ c ∈ s, c ≠ '(' ∧ c ≠ ')' ∧ c ≠ ',' ∧ c ≠ ':'
  | [], _, _, _, _ => fun _ h => nomatch h
  | c :: s, q, r, hs, h => by
    simp only [List.mem_cons, not_or] at hs
    have a1 : c ≠ '(' := fun e => hs.1 e.symm
    rw [aut] at h
    cases hn : next q 0 c with
    | none => rw [hn] at h; cases h
    | some r1 =>
      obtain ⟨q1, d1⟩ := r1
      rw [hn] at h
      have hd : d1 = 0 ∧ c ≠ ')' ∧ c ≠ ',' ∧ c ≠ ':' := by
        unfold next at hn
        split at hn
        · rename_i hp
          split at hn
          · cases hn
          · cases hn
            refine ⟨rfl, ?_, ?_, ?_⟩ <;> rintro rfl <;> exact absurd hp (by decide)
        · simp only [a1, if_false] at hn
          split at hn
          · split at hn
            · cases hn
            · cases hn
          · rename_i hc2
            split at hn
            · rename_i hc3
              split at hn
              · cases hn
                exact ⟨rfl, hc2, by rw [hc3]; decide, by rw [hc3]; decide⟩
              · cases hn
            · split at hn <;> cases hn
      obtain ⟨rfl, hd⟩ := hd
      have ih := inv_flat hs.2 h
      intro y hy
      rcases List.mem_cons.1 hy with rfl | hy
      · exact ⟨a1, hd⟩
      · exact ih y hy

theorem takeWhile_flat : ∀ {s : Str}, (∀ c ∈ s, c ≠ '(' ∧ c ≠ ')' ∧ c ≠ ',' ∧ c ≠ ':') → s.takeWhile (· != '%') = s.takeWhile plainC
  | [], _ => rfl
  | c :: s, h => by
    have ih := takeWhile_flat (s := s) fun d hd => h d (List.mem_cons_of_mem _ hd)
    obtain ⟨h1, h2, h3, h4⟩ := h c (by simp)
    by_cases hc : c = '%'
    · subst hc; rfl
    · rw [List.takeWhile_cons_of_pos (by simpa using hc), List.takeWhile_cons_of_pos (plain_of h1 h2 h3 h4 hc), ih]

theorem extractLoop_ok : ∀ (n : Nat) (s : Str) (acc : List Str), s.length < n → Inv s → ∃ s' acc', extractLoop n s acc = some (s', acc') ∧
    (∀ x, x ∈ acc' ↔ x ∈ acc ∨ Names none s x) ∧ s'.takeWhile (· != '%') = s.takeWhile plainC
  | 0, _, _, h, _ => absurd h (by omega)
  | n + 1, s, acc, h, hi => by
    rw [extractLoop]
    obtain ⟨q, hq⟩ := hi.reads
    by_cases hp : '(' ∈ s
    · rw [if_pos hp]
      obtain ⟨⟨u, w, v⟩, hin⟩ := innerGo_some s [] none .start 0 hq (Or.inl ⟨rfl, rfl, hp⟩)
      obtain ⟨hw, hw', he⟩ := innerGo_eq s [] none (fun _ hx => by cases hx) hin
      have he : s = u ++ '(' :: (w ++ ')' :: v) := he
      have het : s = u ++ (('(' :: (w ++ [')'])) ++ v) := by rw [he]; simp
      rw [hin]
      simp only [Option.bind_some]
      have hr : Rem ('(' :: (w ++ [')'])) s (removeAll ('(' :: (w ++ [')'])) 0 s) := by
        simpa using removeAll_rem (t := '(' :: (w ++ [')'])) (by simp) s.length [] s (Nat.le_refl _)
      have k := rem_keeps hw hw' rfl hr hi
      have hlt : (removeAll ('(' :: (w ++ [')'])) 0 s).length < s.length := by
        have := removeAll_lt (t := '(' :: (w ++ [')'])) (by simp) v u
        rw [← het] at this; exact this
      obtain ⟨s', acc', h1, h2, h3⟩ := extractLoop_ok n _ (acc ++ indexItems w) (by omega) k.inv
      refine ⟨s', acc', h1, ?_, by rw [h3, k.root]⟩
      rw [he] at hi
      obtain ⟨_, hv, d, r, hd⟩ := hi.remove hw hw'
      have hpiece : Piece w := by
        refine ⟨hw, hw', ⟨d, r, hd⟩, fun p hpm => ?_⟩
        obtain ⟨b, hb⟩ := scan_remove u w v hv
        exact hi.good p ((hb p).1.2 (Or.inr (Or.inr (Or.inl hpm))))
      intro x
      rw [h2, List.mem_append, indexItems_iff hpiece]
      constructor
      · rintro ((hx | hx) | hx)
        · exact Or.inl hx
        · right; rw [he]; exact (names_remove u w v hv x).2 (Or.inr hx)
        · exact Or.inr (k.less x hx)
      · rintro (hx | hx)
        · exact Or.inl (Or.inl hx)
        · rcases k.more x hx with hx | hx
          · exact Or.inr hx
          · exact Or.inl (Or.inr hx)
    · rw [if_neg hp]
      have hf := inv_flat hp hq
      refine ⟨s, acc, rfl, fun x => ⟨Or.inl, ?_⟩, takeWhile_flat hf⟩
      rintro (hx | ⟨_, b, hx⟩)
      · exact hx
      · rw [scan_quiet fun c hc => by
          obtain ⟨h1, _, h3, h4⟩ := hf c hc
          simp [opens, h1, h3, h4]] at hx
        cases hx

theorem isRef_root {s : Str} (h : IsRef s) : Root s (s.takeWhile plainC) := by
  refine IsRef.rec (motive_1 := fun s _ => Root s (s.takeWhile plainC)) (motive_2 := fun _ _ => True) ?_ ?_ ?_ trivial (fun _ => trivial) (fun _ _ => trivial) h
  · intro x hx
    have : x.takeWhile plainC = x := takeWhile_all (IsName.plain hx)
    rw [this]
    exact ⟨hx, [], by simp, Or.inl rfl⟩
  · intro x is hx _ _ _ _
    have : (x ++ '(' :: (joined ',' (is.map (joined ':')) ++ [')'])).takeWhile plainC = x := by
      rw [takeWhile_ends (Or.inr ⟨_, _, rfl, by decide⟩)]
      exact takeWhile_all (IsName.plain hx)
    rw [this]
    exact ⟨hx, _, rfl, Or.inr ⟨_, Or.inl rfl⟩⟩
  · intro a b _ _ iha _
    obtain ⟨hn, v, he, hv⟩ := iha
    rw [takeWhile_ends (Or.inr ⟨_, _, rfl, by decide⟩)]
    refine ⟨hn, v ++ '%' :: b, ?_, ?_⟩
    · rw [← List.append_assoc, ← he]
    · rcases hv with rfl | ⟨r, rfl | rfl⟩
      · exact Or.inr ⟨b, Or.inr rfl⟩
      · exact Or.inr ⟨r ++ '%' :: b, Or.inl rfl⟩
      · exact Or.inr ⟨r ++ '%' :: b, Or.inr rfl⟩

theorem names_iff (s x : Str) : Names none s x ↔ IndexRoot s x := by
  unfold Names IndexRoot
  have hsp : ∀ d, plainC d = false ↔ d ∈ special := by
    intro d; unfold plainC; simp
  have hop : ∀ c, opens c = true ↔ c ∈ ['(', ',', ':'] := by
    intro c; unfold opens; simp [or_assoc]
  constructor
  · rintro ⟨hn, h⟩
    refine ⟨hn, ?_⟩
    rcases (scan_mem s none x).1 h with ⟨r, hr, _⟩ | ⟨_, _, u, c, v, he, ho, hv⟩
    · cases hr
    · refine ⟨u, c, v, he, (hop c).1 ho, ?_⟩
      rcases hv with rfl | ⟨d, r, rfl, hd⟩
      · exact Or.inl rfl
      · exact Or.inr ⟨d, r, rfl, (hsp d).1 hd⟩
  · rintro ⟨hn, u, c, v, he, ho, hv⟩
    refine ⟨hn, (scan_mem s none x).2 (Or.inr ⟨IsName.ne_nil hn, IsName.plain hn, u, c, v, he, (hop c).2 ho, ?_⟩)⟩
    rcases hv with rfl | ⟨d, r, rfl, hd⟩
    · exact Or.inl rfl
    · exact Or.inr ⟨d, r, rfl, (hsp d).2 hd⟩

theorem mem_dedup (x : Str) : ∀ (l : List Str), x ∈ dedup l ↔ x ∈ l
  | [] => Iff.rfl
  | y :: l => by
    rw [dedup]
    split
    · rename_i hy
      rw [mem_dedup x l]
      constructor
      · exact List.mem_cons_of_mem _
      · intro h
        rcases List.mem_cons.1 h with rfl | h
        · exact hy
        · exact h
    · rw [List.mem_cons, List.mem_cons, mem_dedup x l]

theorem nodup_dedup : ∀ (l : List Str), (dedup l).Nodup
  | [] => List.nodup_nil
  | y :: l => by
    rw [dedup]
    split
    · exact nodup_dedup l
    · rename_i hy
      exact List.nodup_cons.2 ⟨by rw [mem_dedup]; exact hy, nodup_dedup l⟩

theorem strip_name {x : Str} (h : IsName x) : strip x = x := by
  have hw : PB.NoWs x := fun c hc => by
    rcases h.2 c hc with hc | rfl
    · cases hws : isWs c with
      | false => rfl
      | true =>
        exfalso
        unfold isWs at hws
        simp only [Bool.or_eq_true, beq_iff_eq] at hws
        rcases hws with ((((rfl | rfl) | rfl) | rfl) | rfl) | rfl <;> exact absurd hc (by decide)
    · decide
  have := PB.strip_core (a := []) (b := []) (s := x) (fun _ h => nomatch h) (fun _ h => nomatch h) (IsName.ne_nil h) hw
  simpa using this

/-- **C74**  Of every reference the analysis finds the name with which it begins, and exactly the names with which the references in its
indices begin, at any depth, each once. -/
theorem C74_names {s : Str} (h : IsRef s) : ∃ p is, extract s = some (p, is) ∧ Root s p ∧ (∀ x, x ∈ is ↔ IndexRoot s x) ∧ is.Nodup := by
  have hi : Inv s := by
    obtain ⟨q, _, hq⟩ := isRef_aut h .start 0 (Or.inl rfl)
    exact ⟨⟨q, hq⟩, isRef_good h⟩
  obtain ⟨s', acc, h1, h2, h3⟩ := extractLoop_ok (s.length + 1) s [] (by omega) hi
  have hroot := isRef_root h
  have hp : (if '%' ∈ s' then s'.takeWhile (· != '%') else s') = s.takeWhile plainC := by
    rw [← h3]
    split
    · rfl
    · rename_i hc
      exact (takeWhile_all fun c hc' => by simp; rintro rfl; exact hc hc').symm
  have hacc : ∀ x, x ∈ acc ↔ IndexRoot s x := by
    intro x; rw [h2, ← names_iff]; simp
  have hid : (dedup acc).map strip = dedup acc := by
    rw [List.map_congr_left (g := id) fun x hx => ?_, List.map_id]
    exact strip_name ((hacc x).1 ((mem_dedup x acc).1 hx)).1
  refine ⟨s.takeWhile plainC, dedup acc, ?_, hroot, fun x => by rw [mem_dedup, hacc], nodup_dedup acc⟩
  unfold extract
  rw [h1]
  simp only [Option.map_some]
  rw [hp, hid, strip_name hroot.1]

end Ccpp.PA
