import Verif.Spec.Read
import Verif.Model.Dataspace

/-
Specification vocabulary for dataspace selections: the selected cells, the block lists reported by HDF5, and the order in
which the elements of a contiguous buffer belong to the selected cells.
-/

namespace Verif.Spec

/-- The cell lies between the start and the end of the block. -/
def inEnds : List Nat → List Nat → List Nat → Bool
  | [], [], [] => true
  | s :: ss, e :: es, x :: xs => decide (s ≤ x) && decide (x ≤ e) && inEnds ss es xs
  | _, _, _ => false

/-- A block `(start, end)` with `n` dimensions and at least one cell. -/
def Block : Nat → List Nat → List Nat → Prop
  | 0, [], [] => True
  | n + 1, s :: ss, e :: es => s ≤ e ∧ Block n ss es
  | _, _, _ => False

/-- The span tree of an HDF5 hyperslab selection (`H5S_hyper_span_info_t`): `leaf` is what is below the last dimension,
`stop` the end of a list of spans, `span lo hi down next` a span of the current dimension, the spans of the next
dimension below it, and the following span. -/
inductive SpanTree where
  | leaf
  | stop
  | span (lo hi : Nat) (down next : SpanTree)
deriving DecidableEq

namespace SpanTree

/-- The cells of the selection. -/
def Has : SpanTree → List Nat → Prop
  | .leaf, x => x = []
  | .stop, _ => False
  | .span lo hi down next, x => (∃ y ys, x = y :: ys ∧ lo ≤ y ∧ y ≤ hi ∧ down.Has ys) ∨ next.Has x

/-- The list reported by `H5Sget_select_hyper_blocklist` (`H5S__hyper_span_blocklist`). -/
def blocks : SpanTree → List CRow
  | .leaf => [([], [])]
  | .stop => []
  | .span lo hi down next => down.blocks.map (fun b => (lo :: b.1, hi :: b.2)) ++ next.blocks

/-- First coordinate of the first span. -/
def first : SpanTree → Option Nat
  | .span lo _ _ _ => some lo
  | _ => none

/-- Span trees of HDF5 for `n` dimensions: spans are not empty and increasing, and there is something below every
span. -/
def OK : Nat → SpanTree → Prop
  | n, .leaf => n = 0
  | n, .stop => 0 < n
  | 0, .span _ _ _ _ => False
  | n + 1, .span lo hi down next =>
    lo ≤ hi ∧ down ≠ .stop ∧ OK n down ∧ (∀ l ∈ next.first, hi < l) ∧ OK (n + 1) next

end SpanTree

/-- A regular hyperslab as accepted by `H5Sselect_hyperslab`: same number of dimensions, nothing empty, blocks do not
overlap. -/
def GridOK : List Nat → List Nat → List Nat → List Nat → Prop
  | [], [], [], [] => True
  | _ :: ss, t :: ts, c :: cs, b :: bs => 1 ≤ c ∧ 1 ≤ b ∧ (1 < c → b ≤ t) ∧ GridOK ss ts cs bs
  | _, _, _, _ => False

/-- Cells of a regular hyperslab. -/
def InGrid : List Nat → List Nat → List Nat → List Nat → List Nat → Prop
  | [], [], [], [], [] => True
  | s :: ss, t :: ts, c :: cs, b :: bs, x :: xs =>
    (∃ i, i < c ∧ s + t * i ≤ x ∧ x < s + t * i + b) ∧ InGrid ss ts cs bs xs
  | _, _, _, _, _ => False

/-- The block list of a regular hyperslab reported by `H5Sget_select_hyper_blocklist`: the last dimension varies
fastest. -/
def gridBlocks : List Nat → List Nat → List Nat → List Nat → List CRow
  | s :: ss, t :: ts, c :: cs, b :: bs =>
    (List.range c).flatMap (fun i =>
      (gridBlocks ss ts cs bs).map (fun r => ((s + t * i) :: r.1, (s + t * i + (b - 1)) :: r.2)))
  | _, _, _, _ => [([], [])]

/-- Blocks of a regular hyperslab do not interleave: where a block has several rows, there is only one block in the
following dimensions. -/
def NoInterleave : List Nat → List Nat → Prop
  | _ :: cs, b :: bs => (b = 1 ∨ ∀ k ∈ cs, k = 1) ∧ NoInterleave cs bs
  | _, _ => True

/-- In the last dimension a regular hyperslab has several blocks with space between them. -/
def Strided (t c b : List Nat) : Prop :=
  ∃ t0 ∈ t.getLast?, ∃ c0 ∈ c.getLast?, ∃ b0 ∈ b.getLast?, 2 ≤ c0 ∧ b0 < t0

/-- `xs` are the selected cells in row-major order. -/
def RowMajor (P : List Nat → Prop) (xs : List (List Nat)) : Prop :=
  xs.Pairwise RowLt ∧ ∀ x, x ∈ xs ↔ P x

/-- The `k`-th element of a contiguous buffer for the blocks belongs to the `k`-th cell of `xs`, for every element size, and
there are no other elements. -/
def Holds (bs : List Blk) (xs : List (List Nat)) : Prop :=
  ∀ esize, dataOffset esize bs bs.length = esize * xs.length ∧
    ∀ (k : Nat) (h : k < xs.length), positions esize bs xs[k] = [esize * k]

/-- The blocks represent the list of cells: they are not empty and have `n` dimensions, every cell of a block is in the list, and
the buffer of the blocks is in the order of the list. -/
structure Exact (n : Nat) (bs : List Blk) (xs : List (List Nat)) : Prop where
  shape : ∀ b ∈ bs, b.start.length = n ∧ b.count.length = n ∧ ∀ c ∈ b.count, 1 ≤ c
  cover : ∀ b ∈ bs, ∀ x, InBlk b x → x ∈ xs
  holds : Holds bs xs

/-- Number of blocks that contain the cell. -/
def timesIn (bs : List Blk) (x : List Nat) : Nat := (bs.filter (fun b => decide (InBlk b x))).length

/-- Number of blocks `(start, end)` that contain the cell. -/
def timesInEnds (bs : List CRow) (x : List Nat) : Nat := (bs.filter (fun b => inEnds b.1 b.2 x)).length

end Verif.Spec
