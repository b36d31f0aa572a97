import Verif.Spec.Regular
import Verif.Spec.File
import Verif.Spec.Dataspace

/-
Writes and reads through HDF5 selections, element by element: nothing here mentions blocks, metadata or the log.
-/

namespace Verif.Spec

/-- `xs` are the cells of the selection of a dataspace with `n` dimensions, in the order in which HDF5 assigns them to the
elements of a contiguous buffer: row-major for hyperslabs and whole dataspaces, as given for points. -/
def Chosen (n : Nat) : H5Sel → List (List Nat) → Prop
  | .hyper none bs, xs => ∃ t : SpanTree, t.OK n ∧ t ≠ .stop ∧ bs = t.blocks ∧ RowMajor t.Has xs
  | .hyper (some h) bs, xs => h.start.length = n ∧ GridOK h.start h.stride h.count h.block ∧
      bs = gridBlocks h.start h.stride h.count h.block ∧ RowMajor (InGrid h.start h.stride h.count h.block) xs
  | .points ps, xs => (∀ p ∈ ps, p.length = n) ∧ xs = ps
  | .all dims, xs => dims.length = n ∧ RowMajor (fun x => List.Forall₂ (· < ·) x dims) xs
  | .none, xs => xs = []

/-- Irregular hyperslabs of one dimension or whose blocks do not interleave, regular hyperslabs that are `Safe` (all those of one
or two dimensions are), whole dataspaces, and point lists in increasing order. -/
def Supported (n : Nat) : H5Sel → Prop
  | .hyper none bs => 0 < n ∧ (n = 1 ∨ bs.Pairwise (fun a b => RowLt a.2 b.1))
  | .hyper (some h) _ => 0 < n ∧ Safe h.stride h.count h.block
  | .points ps => ps.Pairwise RowLt
  | .all _ => True
  | .none => True

/-- A write through a selection: dataset, its description, the selection, the selected cells in the order of the buffer, and the
buffer (in file representation). -/
structure UW where
  did : Nat
  d : DInfo
  sel : H5Sel
  cells : List (List Nat)
  data : List Byte

/-- The write addresses existing cells of a dataset with dimensions below `2^31`, through a supported selection. -/
structure UW.OK (u : UW) : Prop where
  chosen : Chosen u.d.ndim u.sel u.cells
  supp : Supported u.d.ndim u.sel
  within : ∀ x ∈ u.cells, List.Forall₂ (· < ·) x u.d.dims
  dims : ∀ m ∈ u.d.dims, m < 2 ^ 31

/-- Byte `k` of the element that the write stores in cell `x`. -/
def elemByte (u : UW) (x : List Nat) (k : Nat) : Option Byte :=
  (u.cells.findIdx? (fun y => decide (y = x))).bind (fun i => u.data[u.d.esize * i + k]?)

/-- Byte `k` of cell `x` of dataset `did` after the writes took effect in order. -/
def lastElem (us : List UW) (did : Nat) (x : List Nat) (k : Nat) : Option Byte :=
  ((us.filter (fun u => decide (u.did = did))).filterMap (fun u => elemByte u x k)).getLast?

/-- What a buffer must hold after a read: the byte of the last write to the cell, else of the fill value, else the byte that
was there. -/
def expectedElem (us : List UW) (fill : Nat → Option (List Byte)) (did : Nat) (x : List Nat) (k : Nat) (old : Byte) : Byte :=
  match lastElem us did x k with
  | some v => v
  | none => match fill did with
    | some fv => (fv[k]?).getD old
    | none => old

/-- The write of the log `w` was made for the user write `u`: its blocks come from the selection. -/
structure Made (srt : List (List Nat) → List Nat) (w : AW) (u : UW) : Prop where
  ok : u.OK
  did : w.did = u.did
  d : w.d = u.d
  data : w.data = u.data
  blocks : ∃ s, selections srt u.d.ndim u.sel = .ok s ∧ w.bs = s.blocks

/-- Process `r` reads the cells `xs` of the request into its buffer: the read succeeds, element number `k` of the buffer is
the one of cell `xs[k]`, and nothing outside the buffer changes. -/
def ReturnsElems (st : FState) (r : Nat) (q : RReq) (xs : List (List Nat)) (us : List UW) : Prop :=
  ∃ n, ∀ fuel ≥ n, ∀ fill mem, (∃ mem', st.reads fuel r fill [q] mem (.ok mem')) ∧
    ∀ out, st.reads fuel r fill [q] mem out → ∃ mem', out = .ok mem' ∧
      (∀ (k : Nat) (h : k < xs.length) (j : Nat), j < q.d.esize → mem' (q.xbuf + q.d.esize * k + j) =
        expectedElem us fill q.did xs[k] j (mem (q.xbuf + q.d.esize * k + j))) ∧
      ∀ p, ¬ (q.xbuf ≤ p ∧ p < q.xbuf + q.d.esize * xs.length) → mem' p = mem p

end Verif.Spec
