import Verif.Model.Read

/-
`H5VL_log_selections::H5VL_log_selections (hid_t dsid)`, src/H5VL_logi_dataspace.cpp L27-135 and L165-446:
from a dataspace selection to the list of blocks that is written to the log or looked up by a read.

The pointer arrays `starts`/`counts` (`hstarts`/`hends`) are modelled as pointer arrays: slot `i` holds the
number of a row of the coordinate array, and merging copies pointers, so that two slots may refer to the same
row.  `starts[i]` and `counts[i]` are always moved together, so one row number per slot is enough.  `hsize_t`
and `int` values are `Nat` (no wrap-around: coordinates below 2^64, fewer than 2^31 blocks).
-/

namespace Verif

/-- A row of the coordinate arrays: `starts[i]` and `counts[i]` (or `hends[i]`). -/
abbrev CRow := List Nat × List Nat

/-- The pointer arrays and the memory they point to. -/
structure Arr where
  ptr : Nat → Nat
  mem : Nat → CRow

namespace Arr

/-- `starts[i]`, `counts[i]`. -/
def get (a : Arr) (i : Nat) : CRow := a.mem (a.ptr i)

/-- Assignment through the pointers of slot `i`: `starts[i][..] = ..`, `counts[i][..] = ..`. -/
def write (a : Arr) (i : Nat) (r : CRow) : Arr :=
  { a with mem := fun k => if k = a.ptr i then r else a.mem k }

/-- `starts[j] = starts[i]; counts[j] = counts[i];` -/
def copy (a : Arr) (j i : Nat) : Arr :=
  { a with ptr := fun k => if k = j then a.ptr i else a.ptr k }

/-- Contents of the slots `off .. off + len`. -/
def view (a : Arr) (off len : Nat) : List CRow := (List.range len).map (fun i => a.get (off + i))

/-- A freshly allocated array (`alloc`, L506-529; L245-254): slot `i` points to row `i`. -/
def fresh (rows : List CRow) : Arr := ⟨fun i => i, fun i => rows.getD i ([], [])⟩

end Arr

/-! ### merge_blocks, L90-135 -/

/-- The test of dimension `d` (L102-113): the next block starts where the previous one stops. -/
def follows (useEnd : Bool) (s c s' : Nat) : Bool :=
  if useEnd then decide (c + 1 = s') else decide (s + c = s')

/-- The loop over `k` runs to `ndim` (L100-121); lists hold the dimensions from the current one on, `d` counts
from there. -/
def canMerge (useEnd : Bool) : Nat → List Nat → List Nat → List Nat → List Nat → Bool
  | 0, s :: ss, c :: cs, s' :: ss', _ :: cs' => follows useEnd s c s' && decide (ss' = ss ∧ cs' = cs)
  | d + 1, s :: ss, c :: cs, s' :: ss', c' :: cs' =>
    decide (s' = s ∧ c' = c) && canMerge useEnd d ss cs ss' cs'
  | _, _, _, _, _ => false

/-- `counts[j][d] = counts[i][d]` or `counts[j][d] += counts[i][d]` (L123-127). -/
def mergeCount (useEnd : Bool) : Nat → List Nat → List Nat → List Nat
  | 0, c :: cs, c' :: _ => (if useEnd then c' else c + c') :: cs
  | d + 1, c :: cs, _ :: cs' => c :: mergeCount useEnd d cs cs'
  | _, cs, _ => cs

/-- Body of the loop over `i` (L99-132); the state is the arrays and `j`. -/
def mergeStep (useEnd : Bool) (d off : Nat) (st : Arr × Nat) (i : Nat) : Arr × Nat :=
  let x := st.1.get (off + st.2)
  let y := st.1.get (off + i)
  if canMerge useEnd d x.1 x.2 y.1 y.2 then
    (st.1.write (off + st.2) (x.1, mergeCount useEnd d x.2 y.2), st.2)
  else (st.1.copy (off + (st.2 + 1)) (off + i), st.2 + 1)

/-- One round of the loop over `d` (L96-134): `for (i = 1; i < len; i++)`, `len = j + 1`. -/
def mergeDim (useEnd : Bool) (d off : Nat) (a : Arr) (len : Nat) : Arr × Nat :=
  let r := (List.range (len - 1)).foldl (fun st i => mergeStep useEnd d off st (i + 1)) (a, 0)
  (r.1, r.2 + 1)

/-- `merge_blocks<use_end>`: `for (d = ndim - 1; d > -1; d--)`; the first argument is `ndim`. -/
def mergeBlocks (useEnd : Bool) : Nat → Nat → Arr → Nat → Arr × Nat
  | 0, _, a, len => (a, len)
  | d + 1, off, a, len =>
    mergeBlocks useEnd d off (mergeDim useEnd d off a len).1 (mergeDim useEnd d off a len).2

/-! ### sortblocks, L54-88 -/

def setAt {α : Type} (f : Nat → α) (i : Nat) (x : α) : Nat → α := fun k => if k = i then x else f k

/-- The inner loop `while (k != i)` and the assignments after it (L73-85); `t` is `tmp1`/`tmp2`.  The first
argument bounds the number of rounds; running out stands for a loop that does not end. -/
def cycle {α : Type} (i : Nat) (t : α) : Nat → (Nat → α) → (Nat → Nat) → Nat →
    Res ((Nat → α) × (Nat → Nat))
  | 0, _, _, _ => .ub
  | f + 1, a, idx, j =>
    if idx j = i then .ok (setAt a j t, setAt idx j j)
    else cycle i t f (setAt a j (a (idx j))) (setAt idx j j) (idx j)

/-- Body of the outer loop (L65-86). -/
def reorderStep {α : Type} (len : Nat) (st : (Nat → α) × (Nat → Nat)) (i : Nat) :
    Res ((Nat → α) × (Nat → Nat)) :=
  if st.2 i = i then .ok st else cycle i (st.1 i) len st.1 st.2 i

/-- The loop over `i`. -/
def reorderLoop {α : Type} (len : Nat) : List Nat → (Nat → α) × (Nat → Nat) → Res ((Nat → α) × (Nat → Nat))
  | [], st => .ok st
  | i :: r, st => do
    let st' ← reorderStep len st i
    reorderLoop len r st'

/-- What `std::sort` guarantees for `idx` (L61-62): a permutation of the indices in non-decreasing order of the
keys.  `std::sort` is not stable, so nothing is known about equal keys. -/
def IsSort (srt : List (List Nat) → List Nat) : Prop :=
  ∀ ks : List (List Nat), (srt ks).Perm (List.range ks.length) ∧
    (srt ks).Pairwise (fun i j => lexLt (ks.getD j []) (ks.getD i []) = false)

/-- `sortblocks` on the slots `off .. off + len`. -/
def sortblocks (srt : List (List Nat) → List Nat) (off len : Nat) (a : Arr) : Res Arr := do
  let idx := srt ((a.view off len).map Prod.fst)
  let st ← reorderLoop len (List.range len) (fun i => a.ptr (off + i), fun i => idx.getD i i)
  pure { a with ptr := fun k => if off ≤ k ∧ k < off + len then st.1 (k - off) else a.ptr k }

/-! ### The hyperslab case of the constructor, L197-380 -/

/-- Groups of interleaved blocks (L264-279): a new group begins when the end of the block is less than the start
of the next one.  Rows are `(hstarts[i], hends[i])`. -/
def groupFrom (x : CRow) : List CRow → List (List CRow)
  | [] => [[x]]
  | y :: r =>
    if lexLt x.2 y.1 then [x] :: groupFrom y r
    else
      (x :: (groupFrom y r).headD []) :: (groupFrom y r).tail

def groupRows : List CRow → List (List CRow)
  | [] => []
  | x :: r => groupFrom x r

/-- Carry of the increment (L347-355), for the dimensions right of the first one; the flag is the carry into the
dimension to the left. -/
def bumpCarry : List Nat → List Nat → List Nat → List Nat × Bool
  | s :: ss, e :: es, x :: xs =>
    if (bumpCarry ss es xs).2 then
      if e < x + 1 then (s :: (bumpCarry ss es xs).1, true) else ((x + 1) :: (bumpCarry ss es xs).1, false)
    else (x :: (bumpCarry ss es xs).1, false)
  | _, _, _ => ([], true)

/-- `starts[nreq][ndim - 2]++` with carry (L346-355), on the first `ndim - 1` coordinates; the first one is not
reset. -/
def bump : List Nat → List Nat → List Nat → List Nat
  | _ :: ss, _ :: es, x :: xs =>
    (if (bumpCarry ss es xs).2 then x + 1 else x) :: (bumpCarry ss es xs).1
  | _, _, _ => []

/-- `l < ndim - 1` after the search for a dimension that has not reached its end (L334-337, L357-360), on the first
`ndim - 1` coordinates. -/
def unfinished : List Nat → List Nat → Bool
  | x :: xs, e :: es => decide (x < e) || unfinished xs es
  | _, _ => false

/-- First `ndim - 1` coordinates of the rows of a block (L326-362).  The first argument is the number of rows counted
before (`nbreq`, L290-294); more rows would be written past the end of the arrays. -/
def rowStarts (s e : List Nat) : Nat → List Nat → Res (List (List Nat))
  | 0, _ => .ub
  | f + 1, x =>
    if unfinished x e then do
      let r ← rowStarts s e f (bump s e x)
      pure (x :: r)
    else pure [x]

/-- Number of rows of a block, L290-293. -/
def rowCount (r : CRow) : Nat := prod (List.zipWith (fun s e => e - s + 1) r.1.dropLast r.2.dropLast)

/-- Rows of a block `(hstarts[j], hends[j])` as `(start, count)`, L325-362. -/
def breakRow (r : CRow) : Res (List CRow) := do
  let xs ← rowStarts r.1.dropLast r.2.dropLast (rowCount r) r.1.dropLast
  pure (xs.map (fun x => (x ++ [r.1.getLastD 0],
    List.replicate (r.1.length - 1) 1 ++ [r.2.getLastD 0 - r.1.getLastD 0 + 1])))

def breakRows : List CRow → Res (List CRow)
  | [] => .ok []
  | r :: rs => do
    let x ← breakRow r
    let y ← breakRows rs
    pure (x ++ y)

/-- `counts = end - start + 1` (L313-316). -/
def toCount (r : CRow) : CRow := (r.1, List.zipWith (fun s e => e - s + 1) r.1 r.2)

/-- Assignments `starts[nreq][..] = ..; counts[nreq][..] = ..; nreq++;` for a list of rows. -/
def fill (a : Arr) (nreq : Nat) : List CRow → Arr × Nat
  | [] => (a, nreq)
  | r :: rs => fill (a.write nreq r) (nreq + 1) rs

/-- The selection object: arrays and `nsel`. -/
structure Sel where
  arr : Arr
  nsel : Nat

/-- One group (L309-378). -/
def fillGroup (srt : List (List Nat) → List Nat) (ndim : Nat) (st : Sel) (g : List CRow) : Res Sel :=
  if g.length = 1 then
    .ok ⟨(fill st.arr st.nsel (g.map toCount)).1, st.nsel + 1⟩
  else do
    let rows ← breakRows g
    let f := fill st.arr st.nsel rows
    let a ← sortblocks srt st.nsel rows.length f.1
    let m := mergeBlocks false ndim st.nsel a rows.length
    pure ⟨m.1, st.nsel + m.2⟩

/-- The loop over the groups (L307-380). -/
def fillGroups (srt : List (List Nat) → List Nat) (ndim : Nat) : Sel → List (List CRow) → Res Sel
  | st, [] => .ok st
  | st, g :: gs => do
    let st' ← fillGroup srt ndim st g
    fillGroups srt ndim st' gs

/-- `free (hstarts[0])` (L433-436), `free (starts[0])` (L442): the first slot must still point to the beginning of the
allocated coordinate array. -/
def freeFirst (a : Arr) : Res Unit := if a.ptr 0 = 0 then .ok () else .ub

/-- More than one block (L243-380); `bs` is the result of `H5Sget_select_hyper_blocklist` as `(start, end)`. -/
def fromBlocks (srt : List (List Nat) → List Nat) (ndim : Nat) (bs : List CRow) : Res Sel := do
  let m1 := mergeBlocks true ndim 0 (Arr.fresh bs) bs.length
  let a ← sortblocks srt 0 m1.2 m1.1
  let m2 := mergeBlocks true ndim 0 a m1.2
  let sel ← fillGroups srt ndim ⟨Arr.fresh [], 0⟩ (groupRows (m2.1.view 0 m2.2))
  let _ ← freeFirst m2.1
  pure sel

/-- Parameters of a regular hyperslab, `H5Sget_regular_hyperslab`. -/
structure Hyper where
  start : List Nat
  stride : List Nat
  count : List Nat
  block : List Nat
deriving DecidableEq, Repr

/-- A dataspace selection as HDF5 reports it. -/
inductive H5Sel where
  /-- `H5S_SEL_HYPERSLABS`: the parameters if it is regular, and the block list as `(start, end)`. -/
  | hyper (reg : Option Hyper) (bs : List CRow)
  /-- `H5S_SEL_POINTS`, in the order given by the user. -/
  | points (ps : List (List Nat))
  /-- `H5S_SEL_ALL` with the dimensions of the dataspace. -/
  | all (dims : List Nat)
  | none

/-- A single block. -/
def selOne (s c : List Nat) : Sel := ⟨Arr.fresh [(s, c)], 1⟩

/-- All values are one. -/
def allOnes (l : List Nat) : Bool := l.all (fun x => decide (x = 1))

/-- The shortcut for regular hyperslabs that are one block (L199-225). -/
def shortcut (h : Hyper) : Option Sel :=
  if (allOnes h.stride && allOnes h.block) || allOnes h.count then
    some (selOne h.start (if allOnes h.block then h.count else h.block))
  else Option.none

/-- The hyperslab case: shortcut, one block (L230-242), several blocks.  With an empty block list L252 writes
to an array of size 0. -/
def fromHyper (srt : List (List Nat) → List Nat) (ndim : Nat) (reg : Option Hyper) (bs : List CRow) : Res Sel :=
  (reg.bind shortcut).elim
    (if bs.length = 0 then .ub
     else if bs.length = 1 then .ok (selOne (bs.headD ([], [])).1 (toCount (bs.headD ([], []))).2)
     else fromBlocks srt ndim bs)
    .ok

/-- Point selections (L382-412): all counts are one, the pointers in `starts` are sorted, then merged. -/
def fromPoints (srt : List (List Nat) → List Nat) (ndim : Nat) (ps : List (List Nat)) : Sel :=
  if ps.length = 0 then ⟨Arr.fresh [], 0⟩
  else
    let a := Arr.fresh (ps.map (fun p => (p, List.replicate ndim 1)))
    let idx := srt ps
    let m := mergeBlocks false ndim 0 { a with ptr := fun i => idx.getD i i } ps.length
    ⟨m.1, m.2⟩

/-- The constructor. `srt` is the behaviour of `std::sort`. -/
def selections (srt : List (List Nat) → List Nat) (ndim : Nat) : H5Sel → Res Sel
  | .hyper reg bs => fromHyper srt ndim reg bs
  | .points ps => .ok (fromPoints srt ndim ps)
  | .all dims => .ok (if prod dims = 0 then ⟨Arr.fresh [], 0⟩ else selOne (List.replicate ndim 0) dims)
  | .none => .ok ⟨Arr.fresh [], 0⟩

/-- The block list of the object (`nsel`, `starts`, `counts`). -/
def Sel.blocks (s : Sel) : List Blk := (s.arr.view 0 s.nsel).map (fun r => ⟨r.1, r.2⟩)

/-- The destructor (L439-446): `starts[0]` is `NULL` for scalar dataspaces. -/
def Sel.destroy (ndim : Nat) (s : Sel) : Res Unit :=
  if s.nsel = 0 ∨ ndim = 0 then .ok () else freeFirst s.arr

end Verif
