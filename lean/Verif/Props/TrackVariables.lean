import Verif.Model.TrackVariables
import Verif.Spec.TrackVariables
import Verif.Props.MetadataFileMain
import Verif.Props.ParseObject
/-! # Lemmas for C78: the names of the tables of a file -/
namespace Ccpp.TV
open FDecl (Str Blank)
open MF

theorem rstrip_solid {c : Char} (hc : isWs c = false) (r : Str) : rstrip (c :: r) = c :: rstrip r := by
  unfold rstrip
  rw [List.reverse_cons, List.dropWhile_append]
  split
  · next h =>
    have h : List.dropWhile isWs r.reverse = [] := by simpa using h
    rw [h]; simp [hc]
  · simp

theorem rstrip_split (s : Str) : ∃ b, Blank b ∧ s = rstrip s ++ b := by
  refine ⟨(s.reverse.takeWhile isWs).reverse, ?_, ?_⟩
  · intro c hc
    have := List.all_eq_true.1 (List.all_takeWhile (p := isWs) (l := s.reverse)) c (by simpa using hc)
    exact this
  · unfold rstrip
    rw [← List.reverse_append, List.takeWhile_append_dropWhile, List.reverse_reverse]

theorem rstrip_idem (s : Str) : rstrip (rstrip s) = rstrip s := trimmed_rstrip (rstrip_last s)

theorem strip_rstrip (s : Str) : strip (rstrip s) = strip s := by unfold strip; rw [rstrip_idem]

theorem strip_strip (s : Str) : strip (strip s) = strip s := by
  have h := strip_trimmed s
  unfold strip at h ⊢
  rw [trimmed_rstrip h.2, trimmed_lstrip h.1]

theorem begins_append {ws : List (List Char)} {s : Str} (h : FSub.Begins ws s) (b : Str) : FSub.Begins ws (s ++ b) := by
  induction ws generalizing s with
  | nil => trivial
  | cons w ws ih =>
    obtain ⟨a, v, r, rfl, h1, h2, h3⟩ := h
    exact ⟨a, v, r ++ b, by simp, h1, h2, ih h3⟩

theorem rstrip_keep {a : Str} {c : Char} {r : Str} (hc : isWs c = false) : rstrip (a ++ c :: r) = a ++ c :: rstrip r := by
  unfold rstrip
  rw [List.reverse_append, List.reverse_cons, List.append_assoc, List.dropWhile_append]
  split
  · next h =>
    have h : List.dropWhile isWs r.reverse = [] := by simpa using h
    rw [h]; simp [hc]
  · simp

theorem tableStart_rstrip (s : Str) : tableStart (rstrip s) = tableStart s := by
  rw [Bool.eq_iff_iff, tableStart_iff, tableStart_iff]
  constructor
  · intro h
    obtain ⟨b, _, hb⟩ := rstrip_split s
    rw [hb]; exact begins_append h b
  · rintro ⟨b1, v1, r1, rfl, h1, h2, b2, v2, r2, rfl, h3, h4, b3, v3, r3, rfl, h5, h6, _⟩
    have hv : ∃ c, v3 = [c] ∧ isWs c = false := by
      cases v3 with
      | nil => simp [lower] at h6
      | cons c v =>
        simp only [lower, List.map_cons, List.cons.injEq, List.map_eq_nil_iff] at h6
        obtain ⟨h6, rfl⟩ := h6
        refine ⟨c, rfl, ?_⟩
        rw [Bool.eq_false_iff]
        intro hw
        simp only [isWs, Bool.or_eq_true, beq_iff_eq] at hw
        rcases hw with ((((rfl | rfl) | rfl) | rfl) | rfl) | rfl <;> exact absurd h6 (by decide)
    obtain ⟨c, rfl, hc⟩ := hv
    have he : b1 ++ v1 ++ (b2 ++ v2 ++ (b3 ++ [c] ++ r3)) = (b1 ++ v1 ++ (b2 ++ v2 ++ b3)) ++ c :: r3 := by simp
    rw [he, rstrip_keep hc]
    exact ⟨b1, v1, b2 ++ v2 ++ (b3 ++ [c] ++ rstrip r3), by simp, h1, h2, b2, v2, b3 ++ [c] ++ rstrip r3, rfl, h3, h4, b3, [c], rstrip r3, rfl, h5, h6,
      trivial⟩

/-- Trailing blanks do not matter. -/
theorem findNames_rstrip (b : Bool) (ls : List Str) : findNames b (ls.map rstrip) = findNames b ls := by
  induction ls generalizing b with
  | nil => rfl
  | cons l ls ih =>
    cases b <;> simp only [List.map_cons, findNames, strip_rstrip, tableStart_rstrip, ih]

theorem logical_plain {ls : List Str} (h : ∀ l ∈ ls, (rstrip l).getLast? ≠ some '\\') : PO.logical ls = ls.map rstrip := by
  induction ls with
  | nil => rfl
  | cons l ls ih => rw [PO.logical, if_neg (h l (by simp)), ih fun x hx => h x (by simp [hx])]; rfl

theorem strip_head {s : Str} {c : Char} : (strip s).head? = some c → (lstrip s).head? = some c := by
  rw [strip_eq_comm]
  obtain ⟨b, _, hb⟩ := rstrip_split (lstrip s)
  intro h
  rw [hb, List.head?_append]
  simp [h]

theorem strip_head_of {s : Str} {c : Char} (h : (lstrip s).head? = some c) : (strip s).head? = some c := by
  rw [strip_eq_comm]
  have hc := lstrip_head s c h
  cases e : lstrip s with
  | nil => rw [e] at h; cases h
  | cons x r => rw [e] at h; cases h; rw [rstrip_solid hc]; rfl

theorem strip_nil_lstrip {s : Str} (h : strip s = []) : lstrip s = [] := by
  cases e : lstrip s with
  | nil => rfl
  | cons c r =>
    have := strip_head_of (s := s) (c := c) (by rw [e]; rfl)
    rw [h] at this; cases this

theorem configLine_strip {s : Str} (h : strip s ≠ []) : configLine (strip s) = configLine s := by
  have hs : s ≠ [] := by rintro rfl; exact h rfl
  have hb : isBlank (strip s) = isBlank s := by
    have h1 : (strip s).isEmpty = false := by simpa using h
    have h2 : s.isEmpty = false := by simpa using hs
    have h3 : lstrip (strip s) = strip s := trimmed_lstrip (strip_trimmed s).1
    unfold isBlank
    rw [h1, h2, h3]
    cases e : strip s with
    | nil => exact absurd e h
    | cons c r =>
      have := strip_head (s := s) (c := c) (by rw [e]; rfl)
      cases e' : lstrip s with
      | nil => rw [e'] at this; cases this
      | cons d r' =>
        rw [e'] at this; cases this
        simp only [Bool.false_or]
        by_cases c1 : c = '#'
        · subst c1; rfl
        by_cases c2 : c = ';'
        · subst c2; rfl
        split <;> split <;> simp_all
  unfold configLine
  rw [hb, strip_strip]

/-- A line of the header of a table. -/
theorem findNames_line {l : Str} {es : List (Str × Str)} (h : configLine l = some es) (hb : (lstrip l).head? ≠ some '[') (ls : List Str) :
    findNames true (l :: ls) = (findNames true ls).map fun ns => nameValues es ++ ns := by
  have h1 : (strip l).head? ≠ some '[' := fun h => hb (strip_head h)
  rw [findNames, if_neg h1]
  by_cases hs : strip l = []
  · rw [if_pos (by rw [hs]; rfl)]
    have : es = [] := by
      unfold configLine at h
      split at h
      · simpa using h.symm
      · rw [hs] at h; exact absurd h (by simp [Chk.splitOn, configItem])
    subst this
    cases findNames true ls <;> simp [nameValues]
  · rw [if_neg (by simpa using hs), configLine_strip hs, h]
    rfl

theorem findNames_head {hdr : List Str} {es : List (Str × Str)} (h : EntryLines hdr es) (hk : ∀ e ∈ es, e.1.head? ≠ some '[') (ls : List Str) :
    findNames true (hdr ++ ls) = (findNames true ls).map fun ns => valuesOf es "name".toList ++ ns := by
  have hnb := h.noBracket hk
  clear hk
  induction h with
  | nil => simp [valuesOf]
  | @cons l ls' es fs hl _ ih =>
    rw [List.cons_append, findNames_line ((configLine_iff _ _).2 hl) (hnb l (by simp)), ih fun x hx => hnb x (by simp [hx]), Option.map_map]
    have : valuesOf (es ++ fs) "name".toList = nameValues es ++ valuesOf fs "name".toList := by
      unfold valuesOf nameValues; rw [List.filterMap_append]
    rw [this]
    cases findNames true ls <;> simp

theorem findNames_skip {x : List Str} (h : ∀ l ∈ x, tableStart l = false) (ls : List Str) : findNames false (x ++ ls) = findNames false ls := by
  induction x with
  | nil => rfl
  | cons l x ih => rw [List.cons_append, findNames, h l (by simp)]; exact ih fun y hy => h y (by simp [hy])

theorem findNames_start {l : Str} (h : tableStart l = true) (b : Bool) (ls : List Str) : findNames b (l :: ls) = findNames true ls := by
  cases b with
  | false => rw [findNames, h]
  | true => rw [findNames, if_pos (strip_head_of (isTable_head l h)), h]

theorem findNames_tables {env : Env} (hok : env.Ok) {tls : List (List Str)} {docs : List TableDoc} (ht : All2 TableText tls docs)
    (hm : ∀ d ∈ docs, ∃ P R t, TableMeans env P R d t) (hlast : ∀ d, docs.getLast? = some d → d.sects ≠ []) (b : Bool) (hne : docs = [] → b = false) :
    findNames b tls.flatten = some (docs.flatMap fun d => valuesOf d.entries "name".toList) := by
  induction ht generalizing b with
  | nil => rw [hne rfl]; rfl
  | @cons x d tls docs hx hr ih =>
    obtain ⟨P, R, t, hmd⟩ := hm d (by simp)
    have hp := TableText.piece hok hx hmd
    obtain ⟨l, hdr, sls, rfl, hl, he, hs⟩ := hx
    have ih := ih (fun d hd => hm d (by simp [hd])) (fun d' hd' => by
      cases docs with
      | nil => cases hd'
      | cons a as => exact hlast d' (by rw [List.getLast?_cons_cons]; exact hd'))
    rw [List.flatten_cons, List.cons_append, findNames_start ((tableStart_iff l).2 hl), List.append_assoc,
      findNames_head he (fun e he' => tableEntry_head (hmd.keys e he'))]
    have key : findNames true (sls.flatten ++ tls.flatten) = some (docs.flatMap fun d => valuesOf d.entries "name".toList) := by
      cases sls with
      | nil =>
        refine ih true fun hd => ?_
        subst hd
        cases hs' : d.sects with
        | nil => exact absurd hs' (hlast d rfl)
        | cons a as => rw [hs'] at hs; cases hs
      | cons y sls =>
        obtain ⟨l', body, hb, hl', hbody⟩ := hp
        have hbe : body = hdr ++ (y :: sls).flatten := by injection hb with _ hb; exact hb.symm
        rw [hbe] at hbody
        have hy : ∃ l1 b1, y = l1 :: b1 ∧ headerStart l1 = true := by
          cases hs' : d.sects with
          | nil => rw [hs'] at hs; cases hs
          | cons a as =>
            rw [hs'] at hs
            cases hs with
            | cons h1 _ =>
              obtain ⟨l1, h1', v1, rfl, hl1, _⟩ := h1
              exact ⟨l1, _, rfl, (headerStart_iff l1).2 hl1⟩
        obtain ⟨l1, b1, rfl, hl1⟩ := hy
        have hno : ∀ z ∈ (l1 :: b1) ++ sls.flatten, tableStart z = false := fun z hz => hbody z (by
          rw [List.flatten_cons]; exact List.mem_append_right _ hz)
        have hl1' := hno l1 (by simp)
        rw [List.flatten_cons, List.cons_append, List.cons_append, findNames, if_pos (strip_head_of (isHeader_head l1 hl1)), hl1',
          findNames_skip (fun z hz => hno z (by simp only [List.cons_append, List.mem_cons]; exact .inr hz))]
        exact ih false fun _ => rfl
    rw [key]
    rfl

/-- **C78, the names of a file**: for a file that is a metadata file with the meaning `ts`, exactly the names of its tables are found. -/
theorem findNames_file {env : Env} (hok : env.Ok) {lines : List Str} {docs : List TableDoc} {ty : Types} {ts : List Table}
    (ht : FileText (lines.map rstrip) docs) (hm : FileMeans env ty docs ts) (hlast : ∀ d, docs.getLast? = some d → d.sects ≠ []) :
    findNames false lines = some (docs.flatMap fun d => valuesOf d.entries "name".toList) := by
  rw [← findNames_rstrip]
  obtain ⟨pre, tls, he, hpre, ht⟩ := ht
  rw [he]
  have hno : ∀ l ∈ pre, tableStart l = false := by
    intro l hl
    refine not_start isTable_head ?_
    rcases hpre l hl with rfl | ⟨b, c, r, rfl, hb, hc⟩
    · simp [lstrip]
    · rw [FDecl.lstrip_blank hb]
      rcases hc with rfl | rfl <;> rw [FDecl.lstrip_cons (by decide)] <;> simp
  rw [findNames_skip hno]
  refine findNames_tables hok ht (fun d hd => ?_) hlast false fun _ => rfl
  obtain ⟨i, hi⟩ := List.mem_iff_getElem?.1 hd
  have hlt : i < ts.length := by rw [← hm.2.1]; exact (List.getElem?_eq_some_iff.1 hi).1
  exact ⟨_, _, _, hm.2.2 i d ts[i] hi (List.getElem?_eq_getElem hlt)⟩

end Ccpp.TV
