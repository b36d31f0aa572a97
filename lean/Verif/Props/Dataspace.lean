import Verif.Lemmas.Strided
import Verif.Props.FileEx

/-
Normalisation of dataspace selections (C13) and the order of elements (C14).  `srt` is any behaviour of `std::sort`
(`IsSort`); `isort_isSort` shows that there is one.
-/

namespace Verif.Props
open Spec (AW SpanTree GridOK InGrid gridBlocks NoInterleave Strided RowMajor Holds Exact Block timesIn timesInEnds RowLt inBox)

/-- There is a behaviour of `std::sort` that meets `IsSort`. -/
example : ∃ srt, IsSort srt := ⟨isort, isort_isSort⟩

/-! ### C13: no selected cell is lost, added or duplicated -/

/-- C13 for every list of blocks, in any order, also overlapping, as long as in every group of interleaved blocks but the
last one no rows are merged (`SettledAll`).  Full statement: without `SettledAll`; see `C13_blocks_violated`. -/
theorem C13_blocks_partial {srt : List (List Nat) → List Nat} (hs : IsSort srt) {n : Nat} (hn : 0 < n) {bs : List CRow}
    (hne : bs ≠ []) (h : ∀ b ∈ bs, Block n b.1 b.2) (hset : SettledAll srt n bs) {sel : Sel}
    (hok : selections srt n (.hyper none bs) = .ok sel) : ∀ x, timesIn sel.blocks x = timesInEnds bs x := by
  have hE : ∀ r ∈ bs, EndOK n r := fun r hr => endOK_of_block (h r hr)
  refine sel_times (n := n) ?_ h (fromHyper_perm hs hn rfl hE hset hok)
  have hok' : fromHyper srt n none bs = .ok sel := hok
  unfold fromHyper at hok'
  simp only [Option.bind_none, Option.elim_none] at hok'
  rw [if_neg (by simpa using hne)] at hok'
  split at hok'
  · rename_i h1
    obtain ⟨r, rfl⟩ := List.length_eq_one_iff.mp h1
    simp only [Res.ok.injEq] at hok'
    subst hok'
    exact selOne_box (n := n) (hE r (by simp)).box
  · obtain ⟨sel', m, e, v, _, _, _⟩ := fromBlocks_view hs hne hE hset
    rw [e] at hok'
    obtain ⟨_, _, hok'⟩ := Res.bind_ok hok'
    have : sel' = sel := by simpa using hok'
    subst this
    rw [v]
    intro r hr
    obtain ⟨g, hg, hr⟩ := List.mem_flatMap.mp hr
    exact outL_box hs hn (fun r hr => (mergedL_ok hs hE).1 r (mem_groups hg hr)) r hr

/-- C13 for block lists in which every block begins after the end of the blocks before it. -/
theorem C13_ordered_partial {srt : List (List Nat) → List Nat} (hs : IsSort srt) {n : Nat} (hn : 0 < n) {bs : List CRow}
    (hne : bs ≠ []) (h : ∀ b ∈ bs, Block n b.1 b.2) (ho : bs.Pairwise (fun a b => RowLt a.2 b.1)) :
    ∃ sel, selections srt n (.hyper none bs) = .ok sel ∧ sel.destroy n = .ok () ∧
      ∀ x, timesIn sel.blocks x = timesInEnds bs x := by
  have hE : ∀ r ∈ bs, EndOK n r := fun r hr => endOK_of_block (h r hr)
  obtain ⟨o, s⟩ := sorted_of_ordered hE ho
  obtain ⟨sel, e, d, p, _, b⟩ := fromHyper_ok hs hn (reg := none) rfl hne hE o (nodup_of_sorted s) (settled_of_sorted hs hE o s)
  exact ⟨sel, e, d, sel_times b h p⟩

/-- Points: every point is in as many blocks as it was given by the user. -/
theorem C13_points_partial {srt : List (List Nat) → List Nat} (hs : IsSort srt) {n : Nat} {ps : List (List Nat)}
    (h : ∀ p ∈ ps, p.length = n) :
    ∃ sel, selections srt n (.points ps) = .ok sel ∧ ∀ x, timesIn sel.blocks x = ps.count x := by
  refine ⟨_, rfl, ?_⟩
  obtain ⟨b, p⟩ := fromPoints_perm hs h
  intro x
  rw [timesIn_count (blocks_shape b), cellsB_blocks]
  exact p.count_eq x

/-! ### C14: the `k`-th element belongs to the `k`-th selected cell -/

/-- C14 for the block list of every HDF5 span tree, with the condition of `C13_blocks_partial`. -/
theorem C14_hyperslab_partial {srt : List (List Nat) → List Nat} (hs : IsSort srt) {n : Nat} (hn : 0 < n) {t : SpanTree}
    (h : t.OK n) (hne : t ≠ .stop) (hset : SettledAll srt n t.blocks) :
    ∃ sel, selections srt n (.hyper none t.blocks) = .ok sel ∧ sel.destroy n = .ok () ∧
      ∃ xs, RowMajor t.Has xs ∧ Exact n sel.blocks xs := by
  obtain ⟨hb, hp, hh, hx⟩ := tree_blocks h
  have hE : ∀ r ∈ t.blocks, EndOK n r := fun r hr => endOK_of_block (hb r hr)
  obtain ⟨o, d⟩ := ord_of_stepped hE hp
  obtain ⟨sel, e, d, p, s, b⟩ := fromHyper_ok hs hn (reg := none) rfl (hx hne) hE o d hset
  refine ⟨sel, e, d, sel_good b s ?_⟩
  intro x
  rw [p.mem_iff, mem_ends hb, hh]

/-- C14 for span trees whose blocks follow one another in row-major order. -/
theorem C14_ordered_partial {srt : List (List Nat) → List Nat} (hs : IsSort srt) {n : Nat} (hn : 0 < n) {t : SpanTree}
    (h : t.OK n) (hne : t ≠ .stop) (ho : t.blocks.Pairwise (fun a b => RowLt a.2 b.1)) :
    ∃ sel, selections srt n (.hyper none t.blocks) = .ok sel ∧ sel.destroy n = .ok () ∧
      ∃ xs, RowMajor t.Has xs ∧ Exact n sel.blocks xs := by
  have hE : ∀ r ∈ t.blocks, EndOK n r := fun r hr => endOK_of_block ((tree_blocks h).1 r hr)
  obtain ⟨o, s⟩ := sorted_of_ordered hE ho
  exact C14_hyperslab_partial hs hn h hne (settled_of_sorted hs hE o s)

/-- C14 for all hyperslab selections of one-dimensional dataspaces. -/
theorem C14_line_partial {srt : List (List Nat) → List Nat} (hs : IsSort srt) {t : SpanTree} (h : t.OK 1) (hne : t ≠ .stop) :
    ∃ sel, selections srt 1 (.hyper none t.blocks) = .ok sel ∧ sel.destroy 1 = .ok () ∧
      ∃ xs, RowMajor t.Has xs ∧ Exact 1 sel.blocks xs := by
  refine C14_ordered_partial hs (by omega) h hne ?_
  obtain ⟨hb, hp, _, _⟩ := tree_blocks h
  refine hp.imp_of_mem ?_
  rintro ⟨s, e⟩ ⟨s', e'⟩ ha hb' hab
  have h1 := (endOK_of_block (hb _ ha))
  have h2 := (endOK_of_block (hb _ hb'))
  have l1 := h1.len
  have l2 := h1.le.length_eq
  have l3 := h2.len
  have l4 := h2.le.length_eq
  simp only at l1 l2 l3 l4 hab
  obtain ⟨a, rfl⟩ := List.length_eq_one_iff.mp l1
  obtain ⟨b, rfl⟩ := List.length_eq_one_iff.mp (l2.symm.trans l1)
  obtain ⟨c, rfl⟩ := List.length_eq_one_iff.mp l3
  obtain ⟨d, rfl⟩ := List.length_eq_one_iff.mp (l4.symm.trans l3)
  simp only [SteppedE, or_false, and_false] at hab
  exact .inl hab

/-- C14 for regular hyperslabs of any number of dimensions whose blocks do not interleave.  Full statement: without
`NoInterleave`; see `C14_hyperslab_violated`. -/
theorem C14_regular_partial {srt : List (List Nat) → List Nat} (hs : IsSort srt) {s t c b : List Nat} (hn : 0 < s.length)
    (h : GridOK s t c b) (hi : NoInterleave c b) :
    ∃ sel, selections srt s.length (.hyper (some ⟨s, t, c, b⟩) (gridBlocks s t c b)) = .ok sel ∧
      sel.destroy s.length = .ok () ∧ ∃ xs, RowMajor (InGrid s t c b) xs ∧ Exact s.length sel.blocks xs := by
  obtain ⟨hE, o⟩ := grid_ord h
  exact grid_exact hs hn h (settled_of_sorted hs hE o (grid_sorted h hi))

/-- C14 for regular hyperslabs of any number of dimensions that have several blocks with space between them in the last
dimension, also if the blocks interleave. -/
theorem C14_strided_partial {srt : List (List Nat) → List Nat} (hs : IsSort srt) {s t c b : List Nat} (hn : 0 < s.length)
    (h : GridOK s t c b) (hi : Strided t c b) :
    ∃ sel, selections srt s.length (.hyper (some ⟨s, t, c, b⟩) (gridBlocks s t c b)) = .ok sel ∧
      sel.destroy s.length = .ok () ∧ ∃ xs, RowMajor (InGrid s t c b) xs ∧ Exact s.length sel.blocks xs := by
  refine grid_exact hs hn h ?_
  obtain ⟨s', t', c', b', s0, t0, c0, b0, rfl, rfl, rfl, rfl, hg, h1, h2, h3⟩ := gridOK_parts hn h
  obtain ⟨t1, ht, c1, hc, b1, hb, h4, h5⟩ := hi
  simp at ht hc hb
  subst ht hc hb
  rw [List.length_append]
  exact strided_settled hs hg h h4 h2 h5

/-- C14 for all regular hyperslabs of two-dimensional dataspaces. -/
theorem C14_plane_partial {srt : List (List Nat) → List Nat} (hs : IsSort srt) {s t c b : List Nat} (hn : s.length = 2)
    (h : GridOK s t c b) :
    ∃ sel, selections srt s.length (.hyper (some ⟨s, t, c, b⟩) (gridBlocks s t c b)) = .ok sel ∧
      sel.destroy s.length = .ok () ∧ ∃ xs, RowMajor (InGrid s t c b) xs ∧ Exact s.length sel.blocks xs := by
  have hn' : 0 < s.length := by omega
  obtain ⟨s', t', c', b', s0, t0, c0, b0, rfl, rfl, rfl, rfl, hg, h1, h2, h3⟩ := gridOK_parts hn' h
  obtain ⟨lc, lb, _, _⟩ := grid_lengths hg
  rw [List.length_append] at hn
  have ls : s'.length = 1 := by simpa using hn
  obtain ⟨c1, rfl⟩ := List.length_eq_one_iff.mp (lc.trans ls)
  obtain ⟨b1, rfl⟩ := List.length_eq_one_iff.mp (lb.trans ls)
  rcases Nat.lt_or_ge 1 c0 with hc | hc
  · rcases Nat.lt_or_ge b0 t0 with ht | ht
    · exact C14_strided_partial hs hn' h ⟨t0, by simp, c0, by simp, b0, by simp, hc, ht⟩
    · have : t0 = b0 := by have := h3 hc; omega
      subst this
      refine grid_exact hs hn' h ?_
      rw [List.length_append]
      exact joined_settled hs hg h h1 h2 (by simp [NoInterleave])
  · have : c0 = 1 := by omega
    subst this
    exact C14_regular_partial hs hn' h (by simp [NoInterleave])

/-- C14 for points given in increasing row-major order.  Full statement: any order; see `C14_points_violated`. -/
theorem C14_points_partial {srt : List (List Nat) → List Nat} (hs : IsSort srt) {n : Nat} {ps : List (List Nat)}
    (h : ∀ p ∈ ps, p.length = n) (ho : ps.Pairwise RowLt) :
    ∃ sel, selections srt n (.points ps) = .ok sel ∧ sel.destroy n = .ok () ∧ Exact n sel.blocks ps := by
  obtain ⟨d, e⟩ := fromPoints_ok hs h ho
  refine ⟨_, rfl, d, ?_⟩
  have hb := (fromPoints_perm hs h).1
  have := sel_exact hb (by rw [e]; exact nodup_of_sorted ho)
  rwa [e] at this

/-- C14 for `H5S_ALL`. -/
theorem C14_all_partial (srt : List (List Nat) → List Nat) (dims : List Nat) :
    ∃ sel, selections srt dims.length (.all dims) = .ok sel ∧ sel.destroy dims.length = .ok () ∧
      ∃ xs, RowMajor (fun x => List.Forall₂ (· < ·) x dims) xs ∧ Exact dims.length sel.blocks xs := by
  have hin : ∀ (d x : List Nat), inBox (List.replicate d.length 0) d x = true ↔ List.Forall₂ (· < ·) x d := by
    intro d
    induction d with
    | nil => intro x; cases x <;> simp [inBox]
    | cons a d ih =>
      intro x
      cases x with
      | nil => simp [inBox]
      | cons y x =>
        rw [List.length_cons, List.replicate_succ]
        simp only [inBox, Bool.and_eq_true, ih, List.forall₂_cons, decide_eq_true_eq]
        simp
  by_cases h0 : prod dims = 0
  · refine ⟨⟨Arr.fresh [], 0⟩, by simp [selections, h0], by simp [Sel.destroy], [], ⟨List.Pairwise.nil, ?_⟩, ?_⟩
    · intro x
      constructor
      · intro hx; simp at hx
      · intro hx
        exfalso
        have : ∀ {x d : List Nat}, List.Forall₂ (· < ·) x d → prod d ≠ 0 := by
          intro x d hf
          induction hf with
          | nil => simp [prod]
          | cons h1 _ ih =>
            rw [prod_cons]
            exact Nat.mul_ne_zero (by omega) ih
        exact this hx h0
    · refine ⟨by simp [Sel.blocks, Arr.view], by simp [Sel.blocks, Arr.view], fun e => ?_⟩
      simp [Sel.blocks, Arr.view, Spec.dataOffset]
  · have hbox : BoxOK dims.length (List.replicate dims.length 0, dims) := by
      refine ⟨by simp, rfl, ?_⟩
      intro c hc
      rcases Nat.eq_zero_or_pos c with rfl | h
      · exfalso
        apply h0
        have : ∀ {d : List Nat}, 0 ∈ d → prod d = 0 := by
          intro d
          induction d with
          | nil => simp
          | cons a d ih =>
            intro hm
            rw [prod_cons]
            rcases List.mem_cons.mp hm with rfl | hm
            · simp
            · rw [ih hm]; simp
        exact this hc
      · exact h
    refine ⟨_, by simp only [selections]; rw [if_neg h0], selOne_destroy _ _ _,
      sel_good (selOne_box hbox) (selOne_sorted hbox) ?_⟩
    intro x
    rw [selOne_mem hbox, hin]

/-! ### Violations -/

/-- A regular three-dimensional hyperslab: start (0,0,0), stride (3,3,1), count (2,2,1), block (2,2,1). -/
def hyS : List Nat := [0, 0, 0]
def hyT : List Nat := [3, 3, 1]
def hyC : List Nat := [2, 2, 1]
def hyB : List Nat := [2, 2, 1]

/-- The blocks computed by the code. -/
def hyOut : List Blk :=
  [⟨[0, 0, 0], [1, 2, 1]⟩, ⟨[0, 3, 0], [1, 2, 1]⟩, ⟨[3, 0, 0], [1, 2, 1]⟩, ⟨[4, 0, 0], [1, 2, 1]⟩,
   ⟨[3, 0, 0], [1, 2, 1]⟩, ⟨[3, 3, 0], [1, 2, 1]⟩, ⟨[4, 0, 0], [1, 2, 1]⟩, ⟨[4, 3, 0], [1, 2, 1]⟩]

theorem hy_eval {srt : List (List Nat) → List Nat} (hs : IsSort srt) :
    ∃ sel, selections srt 3 (.hyper (some ⟨hyS, hyT, hyC, hyB⟩) (gridBlocks hyS hyT hyC hyB)) = .ok sel ∧
      sel.blocks = hyOut := by
  have h : okWith (fun sel => decide (sel.blocks = hyOut)) (fromBlocksN 3 (gridBlocks hyS hyT hyC hyB)) = true := by
    decide +kernel
  obtain ⟨sel, e, h⟩ := okWith_iff h
  refine ⟨sel, ?_, by simpa using h⟩
  have e2 := fromBlocksN_ok hs e
  have h1 : (gridBlocks hyS hyT hyC hyB).length = 4 := by decide +kernel
  have h2 : shortcut ⟨hyS, hyT, hyC, hyB⟩ = none := by decide +kernel
  simp only [selections, fromHyper, Option.bind_some, h2, Option.elim_none, h1]
  exact e2

/-- C13 and C14 are violated: for this hyperslab the selected cell (1,0,0) is in no block and (3,0,0) in two, so that the
fifth element of the buffer, which belongs to (1,0,0), is read from or written to (3,0,0). -/
theorem C13_blocks_violated {srt : List (List Nat) → List Nat} (hs : IsSort srt) :
    GridOK hyS hyT hyC hyB ∧
    ∃ sel, selections srt 3 (.hyper (some ⟨hyS, hyT, hyC, hyB⟩) (gridBlocks hyS hyT hyC hyB)) = .ok sel ∧
      (timesInEnds (gridBlocks hyS hyT hyC hyB) [1, 0, 0] = 1 ∧ timesIn sel.blocks [1, 0, 0] = 0) ∧
      (timesInEnds (gridBlocks hyS hyT hyC hyB) [3, 0, 0] = 1 ∧ timesIn sel.blocks [3, 0, 0] = 2) := by
  refine ⟨by simp [GridOK, hyS, hyT, hyC, hyB], ?_⟩
  obtain ⟨sel, e, h⟩ := hy_eval hs
  refine ⟨sel, e, ?_⟩
  rw [h]
  decide +kernel

theorem C14_hyperslab_violated {srt : List (List Nat) → List Nat} (hs : IsSort srt) :
    GridOK hyS hyT hyC hyB ∧
    ∃ sel, selections srt 3 (.hyper (some ⟨hyS, hyT, hyC, hyB⟩) (gridBlocks hyS hyT hyC hyB)) = .ok sel ∧
      ∀ xs, RowMajor (InGrid hyS hyT hyC hyB) xs → ¬ Holds sel.blocks xs := by
  refine ⟨by simp [GridOK, hyS, hyT, hyC, hyB], ?_⟩
  obtain ⟨sel, e, h⟩ := hy_eval hs
  refine ⟨sel, e, ?_⟩
  intro xs hx hh
  have hin : InGrid hyS hyT hyC hyB [1, 0, 0] := by
    refine ⟨⟨0, ?_⟩, ⟨0, ?_⟩, ⟨0, ?_⟩, trivial⟩ <;> simp
  obtain ⟨k, hk, he⟩ := List.getElem_of_mem ((hx.2 _).mpr hin)
  have := (hh 1).2 k hk
  rw [he, h] at this
  have hno : Spec.positions 1 hyOut [1, 0, 0] = [] := by decide +kernel
  rw [hno] at this
  simp at this

/-- A union of three hyperslabs of a matrix: rows 0, 1 and columns 0, 2; rows 2, 3 and columns 2, 4; cell (5, 0). -/
def plTree : SpanTree :=
  .span 0 1 (.span 0 0 .leaf (.span 2 2 .leaf .stop)) (.span 2 3 (.span 2 2 .leaf (.span 4 4 .leaf .stop))
    (.span 5 5 (.span 0 0 .leaf .stop) .stop))

/-- Two dimensions are enough for C13 to be violated if the hyperslab is not regular: the selected cell (3, 4) is in no
block and the cell (5, 0) in two. -/
theorem C13_plane_violated {srt : List (List Nat) → List Nat} (hs : IsSort srt) :
    plTree.OK 2 ∧ ∃ sel, selections srt 2 (.hyper none plTree.blocks) = .ok sel ∧
      (timesInEnds plTree.blocks [3, 4] = 1 ∧ timesIn sel.blocks [3, 4] = 0) ∧
      (timesInEnds plTree.blocks [5, 0] = 1 ∧ timesIn sel.blocks [5, 0] = 2) := by
  refine ⟨by simp [plTree, SpanTree.OK, SpanTree.first], ?_⟩
  have h : okWith (fun sel => decide (timesIn sel.blocks [3, 4] = 0 ∧ timesIn sel.blocks [5, 0] = 2))
      (fromBlocksN 2 plTree.blocks) = true := by decide +kernel
  obtain ⟨sel, e, h⟩ := okWith_iff h
  have h := of_decide_eq_true h
  refine ⟨sel, ?_, ⟨by decide +kernel, h.1⟩, by decide +kernel, h.2⟩
  have e2 := fromBlocksN_ok hs e
  have h1 : plTree.blocks.length = 5 := by decide +kernel
  simp only [selections, fromHyper, Option.bind_none, Option.elim_none, h1]
  exact e2

/-- C14 is violated for points: the points (1), (0) are stored in the order (0), (1) … as one block, so the first element of
the buffer belongs to (0); and the destructor frees a pointer that was not allocated. -/
theorem C14_points_violated {srt : List (List Nat) → List Nat} (hs : IsSort srt) :
    ∃ sel, selections srt 1 (.points [[1], [0]]) = .ok sel ∧ ¬ Holds sel.blocks [[1], [0]] ∧
      sel.destroy 1 = .ub := by
  have hd : srt [[1], [0]] = isort [[1], [0]] := srt_eq hs (by decide +kernel)
  have he : fromPoints srt 1 [[1], [0]] = fromPoints isort 1 [[1], [0]] := by
    unfold fromPoints
    rw [hd]
  refine ⟨_, rfl, ?_, ?_⟩
  · rw [he]
    intro hh
    have h1 := (hh 1).2 0 (by simp)
    have h2 : Spec.positions 1 (fromPoints isort 1 [[1], [0]]).blocks [1] = [1] := by decide +kernel
    simp only [List.getElem_cons_zero, h2] at h1
    simp at h1
  · rw [he]
    decide +kernel

/-! ### Cases that meet the hypotheses -/

/-- Two blocks of different width in three dimensions. -/
def dxTree : SpanTree := .span 1 2 (.span 0 3 .leaf .stop) (.span 4 4 (.span 1 1 .leaf (.span 5 6 .leaf .stop)) .stop)

example : dxTree.OK 2 ∧ dxTree ≠ .stop ∧ dxTree.blocks.Pairwise (fun a b => RowLt a.2 b.1) ∧
    (∀ b ∈ dxTree.blocks, Block 2 b.1 b.2) ∧ dxTree.blocks.length = 3 := by
  simp [dxTree, SpanTree.OK, SpanTree.blocks, SpanTree.first, RowLt, Block]

/-- Interleaved blocks: one group, so `SettledAll` holds. -/
def dxInter : SpanTree := .span 0 1 (.span 0 1 .leaf (.span 3 3 .leaf .stop)) .stop

example : dxInter.OK 2 ∧ dxInter ≠ .stop ∧ SettledAll isort 2 dxInter.blocks ∧
    ¬ dxInter.blocks.Pairwise (fun a b => RowLt a.2 b.1) := by
  refine ⟨by simp [dxInter, SpanTree.OK, SpanTree.first], by simp [dxInter], ?_, ?_⟩
  · have : (groupRows (mergedL isort 2 dxInter.blocks)).dropLast = [] := by decide +kernel
    intro g hg
    rw [this] at hg
    simp at hg
  · simp [dxInter, SpanTree.blocks, RowLt]

/-- Unsorted overlapping blocks meet the hypotheses of `C13_blocks_partial`. -/
example : SettledAll isort 1 [([0], [4]), ([2], [6])] ∧
    okWith (fun _ => true) (selections isort 1 (.hyper none [([0], [4]), ([2], [6])])) = true := by
  constructor
  · have : (groupRows (mergedL isort 1 [([0], [4]), ([2], [6])])).dropLast = [] := by decide +kernel
    intro g hg
    rw [this] at hg
    simp at hg
  · decide +kernel

example : (SpanTree.span 2 3 .leaf (.span 7 9 .leaf .stop)).OK 1 := by
  simp [SpanTree.OK, SpanTree.first]

/-- Rows of a matrix with a stride, blocks of three columns. -/
example : GridOK [0, 1] [2, 5] [3, 2] [1, 3] ∧ NoInterleave [3, 2] [1, 3] := by
  simp [GridOK, NoInterleave]

/-- Interleaved blocks in four dimensions. -/
example : GridOK [0, 0, 1, 0] [3, 3, 2, 4] [2, 2, 3, 5] [2, 2, 2, 3] ∧ Strided [3, 3, 2, 4] [2, 2, 3, 5] [2, 2, 2, 3] ∧
    ¬ NoInterleave [2, 2, 3, 5] [2, 2, 2, 3] := by
  refine ⟨by simp [GridOK], ⟨4, by simp, 5, by simp, 3, by simp, by omega, by omega⟩, by simp [NoInterleave]⟩

/-- A checkerboard of blocks. -/
example : GridOK [0, 1] [4, 3] [5, 6] [2, 2] ∧ ¬ NoInterleave [5, 6] [2, 2] := by
  simp [GridOK, NoInterleave]

example : (∀ p ∈ [[0, 4], [2, 1], [2, 2]], p.length = 2) ∧ ([[0, 4], [2, 1], [2, 2]] : List (List Nat)).Pairwise RowLt := by
  simp [RowLt]

end Verif.Props
