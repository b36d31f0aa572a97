import Verif.Model.Meta

/-
Specification vocabulary for metadata: what a decoded entry must say about a write.
-/

namespace Verif.Spec

/-- Byte offset of the data of block `i`: the data of the earlier blocks comes first. -/
def dataOffset (esize : Nat) (bs : List Blk) (i : Nat) : Nat :=
  esize * ((bs.take i).map Blk.size).sum

/-- What a reader must recover from the entry of a write of blocks `bs`. -/
def sels (esize : Nat) (bs : List Blk) : List MSel :=
  bs.mapIdx (fun i b => { start := b.start, count := b.count, doff := dataOffset esize bs i })

/-- A block of a dataset with `n` dimensions, with 64-bit coordinates. -/
structure BlkOK (n : Nat) (b : Blk) : Prop where
  hs : b.start.length = n
  hc : b.count.length = n
  s64 : ∀ x ∈ b.start, x < 2 ^ 64
  c64 : ∀ x ∈ b.count, x < 2 ^ 64

/-- Selections a write can be issued with (at least one block). -/
structure SelOK (d : DInfo) (bs : List Blk) : Prop where
  ne : bs ≠ []
  len : bs.length < 2 ^ 31
  blk : ∀ b ∈ bs, BlkOK d.ndim b

/-- The block lies inside the extent of the dataset. -/
def InExtent (dims : List Nat) (b : Blk) : Prop :=
  b.start.length = dims.length ∧ b.count.length = dims.length ∧
    ∀ i, ∀ (hs : i < b.start.length) (hc : i < b.count.length) (hd : i < dims.length),
      b.start[i] + b.count[i] ≤ dims[i]

/-- All counts of the block are positive. -/
def NonEmpty (b : Blk) : Prop := ∀ x ∈ b.count, 0 < x

/-- The block does not span a whole dimension from dimension `k` on. -/
def NotFullWidth (k : Nat) (dims : List Nat) (b : Blk) : Prop :=
  ∀ i, k ≤ i → ∀ (hc : i < b.count.length) (hd : i < dims.length), b.count[i] < dims[i]

end Verif.Spec
