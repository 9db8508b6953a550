import Verif.Props.CapgenFilesThm
/-!
# C87: derived types, and the order of the files
-/
namespace Ccpp.CF

open Ccpp.FDecl (Str)
open Ccpp.MF

theorem lastValue_mem {α : Type} {es : List (Str × α)} {k : Str} {v : α} (h : lastValue es k = some v) : (k, v) ∈ es := by
  unfold lastValue valuesOf at h
  have := List.mem_of_getLast? h
  rw [List.mem_filterMap] at this
  obtain ⟨e, he, h1⟩ := this
  split at h1
  · rename_i hk
    cases h1
    rw [← hk]
    exact he
  · cases h1

/-- **C87, derived types.**  In a list of files that is accepted, the derived type of every variable has a table: in a file
before, or before the variable in its own file, or the table in which the variable is.  (So the types of the host are not
known in the schemes.) -/
theorem C87_types (world : Str → Option FortSrc) (reg : List Str) (rs : List Read) (hok : ∀ r ∈ rs, r.file.env.Ok)
    (hA : AllRead world reg rs) (i : Nat) (r : Read) (hr : rs[i]? = some r) (j : Nat) (t : Table) (ht : r.tables[j]? = some t)
    (s : Section) (hs : s ∈ t.sects) (p : Props) (hp : p ∈ s.vars) (v : Str) (hv : p "ddt_type".toList = some (.text v)) :
    ∃ u, (u ∈ allTables (rs.take i) ∨ u ∈ r.tables.take (j + 1)) ∧ u.type = some "ddt".toList ∧ u.name = some v := by
  obtain ⟨⟨docs, _, hm⟩, _⟩ := hA.reads i r hr
  have hok' := hok r (List.mem_of_getElem? hr)
  have hlt : j < docs.length := by rw [hm.2.1]; exact (List.getElem?_eq_some_iff.1 ht).1
  have htm := hm.2.2 j docs[j] t (List.getElem?_eq_getElem hlt) ht
  obtain ⟨d, _, hsm⟩ := htm.sects.mem_right hs
  obtain ⟨vd, _, hvm⟩ := hsm.vars.mem_right hp
  obtain ⟨kvs, h1, h2⟩ := hvm.given
  have hne : ("ddt_type".toList : Str) ≠ "local_name".toList := by decide
  rw [h2] at hv
  simp only [hne, if_false] at hv
  obtain ⟨e, _, hg⟩ := h1.mem_right (lastValue_mem hv)
  have hknown : (v ∈ (typesAfter reg (rs.take i)).known ∨ v ∈ ddtNames (r.tables.take j)) ∨
      (t.type = some "ddt".toList ∧ t.name = some v) := by
    generalize hk : ("ddt_type".toList : Str) = k at hg
    generalize hw : Val.text v = w at hg
    cases hg with
    | derived _ h => cases hw; exact h
    | dims _ => exact absurd hk (by decide)
    | plain _ _ h => subst hk; rw [hok'.ddt] at h; cases h
  have mem : ∀ ts : List Table, v ∈ ddtNames ts → ∃ u ∈ ts, u.type = some "ddt".toList ∧ u.name = some v := by
    intro ts h
    unfold ddtNames at h
    rw [List.mem_filterMap] at h
    obtain ⟨u, hu, h3⟩ := h
    split at h3
    · rename_i hd
      exact ⟨u, hu, hd, h3⟩
    · cases h3
  rcases hknown with (h | h) | h
  · obtain ⟨u, hu, h3⟩ := mem _ h
    exact ⟨u, .inl hu, h3⟩
  · obtain ⟨u, hu, h3⟩ := mem _ h
    refine ⟨u, .inr ?_, h3⟩
    exact List.mem_of_mem_take (i := j) (by rwa [List.take_take, Nat.min_eq_left (Nat.le_succ j)])
  · refine ⟨t, .inr ?_, h⟩
    exact List.mem_iff_getElem?.2 ⟨j, by rw [List.getElem?_take, if_pos (Nat.lt_succ_self j), ht]⟩

/-- More registered types do no harm to a metadata file. -/
def EnvMono (env : Env) : Prop :=
  ∀ stype (a b : Str → Bool) p, (∀ n, a n = true → b n = true) → env.accept stype a p = true → env.accept stype b p = true

/-- More registered types do no harm to a Fortran file. -/
def SrcMono (src : FortSrc) : Prop :=
  ∀ (a b : Str → Bool) ss l, (∀ n, a n = true → b n = true) → src a ss = some l → src b ss = some l

theorem All2.imp {α β : Type} {R S : α → β → Prop} (h : ∀ a b, R a b → S a b) {as : List α} {bs : List β}
    (hr : All2 R as bs) : All2 S as bs := by
  induction hr with
  | nil => exact .nil
  | cons h1 _ ih => exact .cons (h _ _ h1) ih

theorem Gives.mono {env : Env} {P Q : Str → Prop} (h : ∀ n, P n → Q n) {e : Str × Str} {x : Str × Val}
    (hg : Gives env P e x) : Gives env Q e x := by
  cases hg with
  | derived h1 h2 => exact .derived h1 (h _ h2)
  | dims h1 => exact .dims h1
  | plain h1 h2 h3 => exact .plain h1 h2 h3

theorem tableMeans_mono {env : Env} (he : EnvMono env) {P Q : Str → Prop} {a b : Str → Bool} (hP : ∀ n, P n → Q n)
    (hR : ∀ n, a n = true → b n = true) {d : TableDoc} {t : Table} (h : TableMeans env P a d t) : TableMeans env Q b d t := by
  refine { h with sects := All2.imp (fun d s hs => ?_) h.sects }
  refine { hs with vars := All2.imp (fun d p hv => ?_) hs.vars }
  obtain ⟨kvs, h1, h2⟩ := hv.given
  refine ⟨⟨kvs, All2.imp (fun e x hg => Gives.mono (fun n hn => ?_) hg) h1, h2⟩, hv.rank, he _ _ _ _ hR hv.accepted⟩
  exact hn.imp (hP n) id

theorem fileMeans_mono {env : Env} (he : EnvMono env) {ty ty' : Types} (hk : ∀ n ∈ ty.known, n ∈ ty'.known)
    (hr : ∀ n ∈ ty.registered, n ∈ ty'.registered) {docs : List TableDoc} {ts : List Table} (h : FileMeans env ty docs ts) :
    FileMeans env ty' docs ts := by
  refine ⟨h.1, h.2.1, fun i d t hd ht => tableMeans_mono he (fun n hn => hn.imp (hk n) id) (fun n hn => ?_) (h.2.2 i d t hd ht)⟩
  simp only [decide_eq_true_eq] at hn ⊢
  exact hn.imp (hr n) id

/-- **C87, order of the files.**  If a list of files is accepted then so is every other order of the files in which the
derived types that were known for a file are still known for it; the tables and sections are the same, in the new order.
(`rs'` is a permutation of the files with their tables.) -/
theorem C87_order (world : Str → Option FortSrc) (reg : List Str) (rs rs' : List Read) (hp : rs.Perm rs')
    (henv : ∀ r ∈ rs, EnvMono r.file.env) (hsrc : ∀ n src, world n = some src → SrcMono src) (hA : AllRead world reg rs)
    (hord : ∀ j r, rs'[j]? = some r → ∃ i : Nat, rs[i]? = some r ∧
      (∀ n ∈ (typesAfter reg (rs.take i)).known, n ∈ (typesAfter reg (rs'.take j)).known) ∧
      (∀ n ∈ (typesAfter reg (rs.take i)).registered, n ∈ (typesAfter reg (rs'.take j)).registered)) :
    AllRead world reg rs' := by
  refine ⟨fun j r hj => ?_, ?_, ?_⟩
  · obtain ⟨i, hi, hk, hr⟩ := hord j r hj
    obtain ⟨⟨docs, ht, hm⟩, path, src, hf, hw, hs⟩ := hA.reads i r hi
    refine ⟨⟨docs, ht, fileMeans_mono (henv r (List.mem_of_getElem? hi)) hk hr hm⟩, path, src, hf, hw, ?_⟩
    refine hsrc path src hw _ _ _ _ (fun n hn => ?_) hs
    simp only [decide_eq_true_eq] at hn ⊢
    exact hn.imp (hr n) id
  · have : (allTables rs).Perm (allTables rs') := hp.flatMap_right _
    exact (this.map _).nodup_iff.1 hA.tables
  · have : (allSections rs).Perm (allSections rs') := hp.flatMap_right _
    exact (this.map _).nodup_iff.1 hA.sections

end Ccpp.CF
