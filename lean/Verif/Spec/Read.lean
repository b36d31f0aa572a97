import Verif.Spec.Log
import Verif.Model.Read

/-
Specification vocabulary for reads: which byte a cell must hold after a sequence of logged writes.
-/

namespace Verif.Spec

/-- The cell `x` lies in the block with the given start and count. -/
def inBox : List Nat → List Nat → List Nat → Bool
  | [], [], [] => true
  | s :: ss, c :: cs, x :: xs => decide (s ≤ x) && decide (x < s + c) && inBox ss cs xs
  | _, _, _ => false

/-- The cell `x` lies in the block. -/
def InBlk (b : Blk) (x : List Nat) : Prop := inBox b.start b.count x = true

instance (b : Blk) (x : List Nat) : Decidable (InBlk b x) := inferInstanceAs (Decidable (_ = _))

/-- Row-major index (Horner form) of the cell `x` relative to the block origin. -/
def rowIndex : Nat → List Nat → List Nat → List Nat → Nat
  | acc, s :: ss, c :: cs, x :: xs => rowIndex (acc * c + (x - s)) ss cs xs
  | acc, _, _, _ => acc

/-- Index of the cell inside the block. -/
def idxIn (b : Blk) (x : List Nat) : Nat := rowIndex 0 b.start b.count x

/-- Byte positions of a cell in the data of a write: one per block that contains it. -/
def positions (esize : Nat) (bs : List Blk) (x : List Nat) : List Nat :=
  (bs.mapIdx (fun i b =>
    if InBlk b x then [dataOffset esize bs i + esize * idxIn b x] else [])).flatten

/-- Byte `k` of the element that a write stores in cell `x`; the last block containing the cell
counts. -/
def cellByte (w : AW) (x : List Nat) (k : Nat) : Option Byte :=
  (positions w.d.esize w.bs x).getLast?.bind (fun p => w.data[p + k]?)

/-- Byte `k` of cell `x` of dataset `did` after the writes of `log` took effect in order; `none` if no
write covers the cell. -/
def lastByte (log : List AW) (did : Nat) (x : List Nat) (k : Nat) : Option Byte :=
  ((log.filter (fun w => decide (w.did = did))).filterMap (fun w => cellByte w x k)).getLast?

/-- Two blocks have no common cell. -/
def NoCommon (a b : Blk) : Prop := ∀ x, ¬ (InBlk a x ∧ InBlk b x)

/-- Where the data of logged writes is stored: later writes of the log at higher file offsets. -/
structure Layout (ls : List (AW × Int)) : Prop where
  lo : ∀ x ∈ ls, 0 ≤ x.2
  order : ls.Pairwise (fun x y => x.2 + (x.1.data.length : Int) ≤ y.2)
  sized : ∀ x ∈ ls, x.1.Sized

/-- The file holds the data of the logged writes. -/
def Stored (disk : Mem) (ls : List (AW × Int)) : Prop :=
  ∀ x ∈ ls, ∀ (i : Nat) (h : i < x.1.data.length), disk (x.2.toNat + i) = x.1.data[i]

/-- Bytes of the buffer of a read request. -/
def bufSize (q : RReq) : Nat := dataOffset q.d.esize q.bs q.bs.length

/-- Address of byte `k` of the cell `c` of block number `i` of a read request. -/
def addrOf (q : RReq) (i : Nat) (b : Blk) (c : List Nat) (k : Nat) : Nat :=
  q.xbuf + dataOffset q.d.esize q.bs i + q.d.esize * idxIn b c + k

/-- Read requests executed together: blocks have the shape of the dataset, buffers do not overlap, and the
reader sees datasets as the writers did. -/
structure ReadOK (ls : List (AW × Int)) (qs : List RReq) : Prop where
  es : ∀ q ∈ qs, 0 < q.d.esize
  shape : ∀ q ∈ qs, ∀ b ∈ q.bs, b.start.length = q.d.ndim ∧ b.count.length = q.d.ndim
  bufs : qs.Pairwise (fun q q' => q.xbuf + bufSize q ≤ q'.xbuf ∨ q'.xbuf + bufSize q' ≤ q.xbuf)
  dset : ∀ x ∈ ls, ∀ q ∈ qs, x.1.did = q.did → x.1.d.ndim = q.d.ndim ∧ x.1.d.esize = q.d.esize
  wshape : ∀ x ∈ ls, ∀ b ∈ x.1.bs, b.start.length = x.1.d.ndim ∧ b.count.length = x.1.d.ndim

/-- Number of logged blocks of the dataset that contain the cell. -/
def written (log : List AW) (did : Nat) (c : List Nat) : Nat :=
  ((log.filter (fun w => decide (w.did = did))).flatMap (fun w => w.bs)).countP (fun b => decide (InBlk b c))

/-- A cell that is requested several times was written at most once. -/
def Once (log : List AW) (qs : List RReq) : Prop :=
  ∀ q ∈ qs, ∀ q' ∈ qs, q.did = q'.did → ∀ i i', ∀ hi : i < q.bs.length, ∀ hi' : i' < q'.bs.length,
    (q, i) ≠ (q', i') → ∀ c, InBlk q.bs[i] c → InBlk q'.bs[i'] c → written log q.did c ≤ 1

/-- Read requests that may ask for a block several times: blocks of the same dataset are equal or have no
cell in common, and a cell that is requested several times was written at most once. -/
structure Repeats (log : List AW) (qs : List RReq) : Prop where
  same : ∀ q ∈ qs, ∀ q' ∈ qs, q.did = q'.did → ∀ b ∈ q.bs, ∀ b' ∈ q'.bs, b = b' ∨ NoCommon b b'
  once : Once log qs

/-- In the first dimension where the blocks differ, the first block ends before the second begins. -/
def Stepped : List Nat → List Nat → List Nat → List Nat → Prop
  | s :: ss, c :: cs, s' :: ss', c' :: cs' => s + c ≤ s' ∨ (s = s' ∧ c = c' ∧ Stepped ss cs ss' cs')
  | _, _, _, _ => False

/-- Row-major order of cells. -/
def RowLt : List Nat → List Nat → Prop
  | x :: xs, y :: ys => x < y ∨ (x = y ∧ RowLt xs ys)
  | _, _ => False

/-- All cells of one block come before all cells of the other one in row-major order. -/
def Separate (a b : Blk) : Prop :=
  (∀ x y, InBlk a x → InBlk b y → RowLt x y) ∨ (∀ x y, InBlk a x → InBlk b y → RowLt y x)

/-- Blocks of a regular grid, blocks of a one-dimensional dataset, blocks with disjoint rows, or blocks that
follow one another in row-major order. -/
def Comparable (a b : Blk) : Prop :=
  Stepped a.start a.count b.start b.count ∨ Stepped b.start b.count a.start a.count ∨ Separate a b

/-- The first block ends no later than the second one in every dimension. -/
def EndsLe : List Nat → List Nat → List Nat → List Nat → Prop
  | s :: ss, c :: cs, s' :: ss', c' :: cs' => s + c ≤ s' + c' ∧ EndsLe ss cs ss' cs'
  | [], [], [], [] => True
  | _, _, _, _ => False

/-- One of two blocks of a dataset that is not scalar ends no later than the other one in every dimension.
This holds for equal blocks, for a block inside another one and for all blocks of a one-dimensional dataset. -/
def Ends (a b : Blk) : Prop :=
  a.count ≠ [] ∧ (EndsLe a.start a.count b.start b.count ∨ EndsLe b.start b.count a.start a.count)

/-- Comparable blocks, or blocks that may overlap with ends in order. -/
def Alike (a b : Blk) : Prop := Ends a b ∨ Comparable a b

/-- Requests for which the file view is guaranteed to be valid: blocks of the same dataset are
pairwise comparable or have their ends in order, and (unless they do not interleave) rows are shorter than
2 GiB. -/
structure Viewable (qs : List RReq) : Prop where
  step : ∀ q ∈ qs, q.bs.Pairwise Alike
  step2 : qs.Pairwise (fun q q' => q.did = q'.did → ∀ b ∈ q.bs, ∀ b' ∈ q'.bs, Alike b b')
  rows : (∀ q ∈ qs, ∀ b ∈ q.bs, ∀ n ∈ b.count.getLast?, n * q.d.esize < 2 ^ 31) ∨
    ((∀ q ∈ qs, q.bs.Pairwise Separate) ∧
      qs.Pairwise (fun q q' => q.did = q'.did → ∀ b ∈ q.bs, ∀ b' ∈ q'.bs, Separate b b'))

end Verif.Spec
