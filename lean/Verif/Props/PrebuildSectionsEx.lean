import Verif.Props.PrebuildSectionsThm
/-!
# The sections of arrays (C76): examples and violations
-/
namespace Ccpp.SC
open PB (Str IsName IsLiteral joined)
open PA (HVar find)

/-! ## A host with arrays of all columns and with blocks -/

/-- The variables of the host -/
def exHost : List HVar :=
  [⟨"ccpp_constant_one".toList, "1".toList, [], []⟩,
   ⟨"horizontal_dimension".toList, "ncol".toList, [], []⟩,
   ⟨"horizontal_loop_begin".toList, "ib".toList, [], []⟩,
   ⟨"horizontal_loop_end".toList, "ie".toList, [], []⟩,
   ⟨"horizontal_loop_extent".toList, "blk(cdata%blk_no)%n".toList, [], []⟩,
   ⟨"vertical_layers".toList, "nz".toList, [], []⟩,
   ⟨"temperature".toList, "st%t(:,m(i,j),:)".toList, ["ccpp_constant_one:horizontal_dimension".toList, "ccpp_constant_one:vertical_layers".toList], []⟩,
   ⟨"snow".toList, "blk(cdata%blk_no)%snow".toList, ["ccpp_constant_one:horizontal_loop_extent".toList], []⟩]

/-- The scheme asks for the temperature in the run phase. -/
def exReq : Req := ⟨"temperature".toList, ["ccpp_constant_one:horizontal_loop_extent".toList, "0:vertical_layers".toList], false, "st%t(:,m(i,j),:)".toList⟩
/-- The scheme asks for the snow in the run phase. -/
def exSnow : Req := ⟨"snow".toList, ["ccpp_constant_one:horizontal_loop_extent".toList], false, "blk(cdata%blk_no)%snow".toList⟩

/-- The computed columns of the array, the index, and the layers -/
example : (passed exHost true exReq).map String.ofList = some "st%t(ib:ie,m(i,j),0:nz)" := by decide +kernel
/-- The columns of the block -/
example : (passed exHost true exSnow).map String.ofList = some "blk(cdata%blk_no)%snow(1:blk(cdata%blk_no)%n)" := by decide +kernel
/-- The temporary variable has two dimensions. -/
example : (allocated exHost true exReq).map String.ofList = some "(ib:ie,0:nz)" := by decide +kernel
/-- Too many dimensions -/
example : passed exHost true { exReq with dims := "1:2".toList :: exReq.dims } = none := by decide +kernel
/-- Blocks are copied to the second dimension. -/
example : deblocked exHost ["1:5".toList, horizontal, "1:vertical_layers".toList] = some ("1:5,1:ncol,1:nz".toList, ":,ib:ib+n-1,:".toList) := by decide +kernel

/-- The local name of the temperature -/
def exRef : Ref := ⟨"st%".toList, "t".toList, [.range [] [], .index "m(i,j)".toList, .range [] []]⟩

theorem exRef_text : exRef.text = exReq.target := by decide

/-- A decidable form of balance -/
theorem bal_of {s : Str} (h : ∀ i ∈ List.range (s.length + 1), (s.take i).count ')' ≤ (s.take i).count '(') (h2 : s.count '(' = s.count ')') : Balanced s := by
  refine ⟨fun p hp => ?_, h2⟩
  obtain ⟨t, rfl⟩ := hp
  have := h p.length (by simp; omega)
  simpa using this

theorem exRef_ok : RefOk exRef := by
  refine ⟨⟨bal_of (by decide) (by decide), .inr (by decide)⟩, by decide, ?_, ?_⟩
  · intro s hs
    simp only [exRef, List.mem_cons, List.not_mem_nil, or_false] at hs
    rcases hs with rfl | rfl | rfl
    · exact ⟨rfl, rfl⟩
    · exact ⟨by decide, by decide, by decide, bal_of (by decide) (by decide)⟩
    · exact ⟨rfl, rfl⟩
  · intro _; rw [← PA.inText_iff]; decide

theorem name_of {s : Str} (h1 : (s.head?.map Char.isAlpha) = some true) (h2 : ∀ c ∈ s, c.isAlphanum = true ∨ c = '_') : IsName s := by
  cases s with
  | nil => cases h1
  | cons c r => exact ⟨⟨c, r, rfl, by simpa using h1⟩, h2⟩

theorem exHost_dims : PA.DimsOk exHost := by
  intro v hv e he
  simp only [exHost, List.mem_cons, List.not_mem_nil, or_false] at hv
  rcases hv with rfl | rfl | rfl | rfl | rfl | rfl | rfl | rfl <;> simp only [List.mem_cons, List.not_mem_nil, or_false] at he
  · rcases he with rfl | rfl
    · refine ⟨["ccpp_constant_one".toList, "horizontal_dimension".toList], by simp, by decide, ?_⟩
      intro p hp
      simp only [List.mem_cons, List.not_mem_nil, or_false] at hp
      rcases hp with rfl | rfl <;> exact ⟨by decide +kernel, .inr (name_of (by decide +kernel) (by decide +kernel))⟩
    · refine ⟨["ccpp_constant_one".toList, "vertical_layers".toList], by simp, by decide, ?_⟩
      intro p hp
      simp only [List.mem_cons, List.not_mem_nil, or_false] at hp
      rcases hp with rfl | rfl <;> exact ⟨by decide +kernel, .inr (name_of (by decide +kernel) (by decide +kernel))⟩
  · subst he
    refine ⟨["ccpp_constant_one".toList, "horizontal_loop_extent".toList], by simp, by decide, ?_⟩
    intro p hp
    simp only [List.mem_cons, List.not_mem_nil, or_false] at hp
    rcases hp with rfl | rfl <;> exact ⟨by decide +kernel, .inr (name_of (by decide +kernel) (by decide +kernel))⟩

theorem exHost_ok : HostOk exHost := by
  refine ⟨by decide, exHost_dims, by decide, by decide, ?_⟩
  rintro std ⟨⟨v, hv, hs, hd⟩, ⟨w, hw, hs', hd'⟩⟩
  have key : ∀ v ∈ exHost, ∀ w ∈ exHost, "horizontal_dimension".toList ∈ PA.dimNames v.dims → "horizontal_loop_extent".toList ∈ PA.dimNames w.dims →
      v.std = w.std → False := by decide +kernel
  exact key v hv w hw (PA.dimOf_iff hd) (PA.dimOf_iff hd') (hs.trans hs'.symm)

theorem exReq_ok : ReqOk exHost true exReq := by
  have hd : ∀ d ∈ exReq.dims, ':' ∈ d → ∃ a b, d = a ++ ':' :: b ∧ (IsLiteral (lower a) ∨ IsName (lower a)) ∧ (IsLiteral (lower b) ∨ IsName (lower b)) := by
    have n1 : IsName (lower "ccpp_constant_one".toList) := name_of (by decide +kernel) (by decide +kernel)
    have n2 : IsName (lower "horizontal_loop_extent".toList) := name_of (by decide +kernel) (by decide +kernel)
    have n3 : IsName (lower "vertical_layers".toList) := name_of (by decide +kernel) (by decide +kernel)
    have n4 : IsLiteral (lower "0".toList) := ⟨[], lower "0".toList, .inl rfl, rfl, by decide +kernel, by decide +kernel⟩
    intro d hd _
    rcases List.mem_cons.1 hd with hd | hd
    · exact ⟨"ccpp_constant_one".toList, "horizontal_loop_extent".toList, hd.trans (by decide +kernel), .inr n1, .inr n2⟩
    · exact ⟨"0".toList, "vertical_layers".toList, (List.mem_singleton.1 hd).trans (by decide +kernel), .inl n4, .inr n3⟩
  refine ⟨hd, fun d hdm lo hi part ha => ?_⟩
  have := (dimOf_iff (char := false) exHost_ok (hd d hdm)).2 ⟨lo, hi, part, ha, rfl⟩
  have key : ∀ d ∈ exReq.dims, (dimOf exHost true false exReq.std d).all (fun x => x.lo != x.hi) = true := by decide +kernel
  have hk := key d hdm
  rw [this] at hk
  simpa using hk

/-- The theorem applies to the example. -/
example : ∃ w s, List.Forall₂ (Wants exHost true exReq) exReq.dims w ∧
    (if exReq.dims = [] then s = exRef.subs else if exRef.subs = [] then s = w else Fills exRef.subs w s) ∧
    "st%t(ib:ie,m(i,j),0:nz)".toList = Ref.text { exRef with subs := s } :=
  (C76_section_partial exHost_ok exRef_ok exRef_text exReq_ok).1 (by decide +kernel)

/-! ## Violations -/

/-- **C76 is violated** by dimensions with equal bounds: the argument is an element, not an array with one element, and the temporary variable has as many
elements as the bound says. -/
theorem C76_equal_violated {h : List HVar} {v : Req} {r : Ref} {d t : List Char} (hr : RefOk r) (hrv : r.text = v.target) (hs : r.subs = [])
    (hd : v.dims = [d]) (hc : v.char = false) (run : Bool) (hb : dimOf h run false v.std d = some ⟨t, t, true⟩) :
    passed h run v = some (Ref.text { r with subs := [.index t] }) ∧ allocated h run v = some (subsText [.index t]) := by
  have hsec : section_ h run v = some ⟨'(' :: (t ++ [')']), '(' :: (t ++ [')']), "(1)".toList⟩ := by
    unfold section_
    rw [← hrv, extractDims_ref hr, hs, hd, hc]
    simp [List.mapM_cons, hb, Dim.text, Dim.size, PB.joinWith]
  unfold passed allocated
  rw [hsec, ← hrv, base_ref hr]
  simp [Ref.text, subsText, Sub.text, joined]

/-- For example the section `5:5` -/
example : (passed exHost true { exSnow with dims := ["5:5".toList], target := "x".toList }).map String.ofList = some "x(5)" ∧
    (allocated exHost true { exSnow with dims := ["5:5".toList], target := "x".toList }).map String.ofList = some "(5)" := by decide +kernel

/-- **C76 is violated** by local names with ranges: the lower bound 2 of the variable of the host is lost. -/
theorem C76_range_violated : (passed exHost false ⟨"x".toList, ["ccpp_constant_one:vertical_layers".toList], false, "x(2:n)".toList⟩).map String.ofList =
    some "x(1:nz)" := by decide +kernel

/-- **C76 is violated** by local names in which the last subscripts stand twice: also those of the parent are removed. -/
theorem C76_repeated_violated : (passed exHost true ⟨"x".toList, [], false, "a(i)%b(i)".toList⟩).map String.ofList = some "a%b(i)" := by decide +kernel

/-- **C76 is violated** by local names with a section in the parent: the subscripts are written behind the component. -/
theorem C76_parent_violated : (passed exHost false ⟨"x".toList, ["ccpp_constant_one:vertical_layers".toList], false, "a(:)%b".toList⟩).map String.ofList =
    some "a(:)%b(1:nz)" := by decide +kernel

/-- **C76 is violated** by schemes that ask for the columns of a block in another phase than run: they are not refused (the program looks for the extent of
the subcycles instead). -/
theorem C76_phase_violated : (passed exHost false exSnow).map String.ofList = some "blk(cdata%blk_no)%snow(1:blk(cdata%blk_no)%n)" := by decide +kernel

/-- **C76 is violated** by arrays of texts: the scheme gets all elements, not those that it asks for. -/
theorem C76_text_violated : (passed exHost true ⟨"x".toList, ["2:3".toList], true, "x".toList⟩).map String.ofList = some "x(:)" := by decide +kernel

end Ccpp.SC
