import Verif.Spec.Rows
import Verif.Spec.File

/-
What is recorded of a write of several blocks with encoded selections: counts that reach the extent are carried.
-/

namespace Verif.Spec

/-- Counts as digits of a number whose radices are the extents: a count that reaches its extent is carried to the dimension
before.  The number carried out, and the digits. -/
def carry : List Nat → List Nat → Nat × List Nat
  | d :: ds, c :: cs => ((c + (carry ds cs).1) / d, (c + (carry ds cs).1) % d :: (carry ds cs).2)
  | _, _ => (0, [])

/-- The first count keeps what is carried into it. -/
def carried : List Nat → List Nat → List Nat
  | _ :: ds, c :: cs => (c + (carry ds cs).1) :: (carry ds cs).2
  | _, cs => cs

/-- The block with its counts from dimension `k` on carried. -/
def recBlk (k : Nat) (dims : List Nat) (b : Blk) : Blk := ⟨b.start, b.count.take k ++ carried (dims.drop k) (b.count.drop k)⟩

/-- The write as it is recorded; `k` leading dimensions are not encoded. -/
def recorded (k : Nat) (w : AW) : AW := { w with bs := w.bs.map (recBlk k w.d.dims) }

/-- The write without the blocks that span a whole dimension after the first encoded one.  The data stays as it is: the
blocks that are left take their elements from its beginning. -/
def kept (k : Nat) (w : AW) : AW := { w with bs := w.bs.filter (fun b => !spansWhole (k + 1) w.d.dims b) }

/-- The number of leading dimensions that are not encoded: the record of a write confined to one record. -/
def Skips (k : Nat) (w : AW) : Prop := (k = 1 ∧ Confined w) ∨ (k = 0 ∧ ¬ Confined w)

/-- Writes of several blocks inside the extent that process `r` may issue; the blocks may span whole dimensions. -/
structure AnyWrite (cfg : Cfg) (a : AFile) (r : Nat) (w : AW) : Prop where
  exact : w.Exact
  ne : w.data ≠ []
  short : w.data.length < 2 ^ 31
  did : w.did < 2 ^ 31
  sel : SelOK w.d w.bs
  sz : 48 + 8 * w.d.ndim + 16 * (w.d.ndim * w.bs.length) < 2 ^ 31
  several : 1 < w.bs.length
  inside : ∀ b ∈ w.bs, InExtent w.d.dims b
  full : ∀ b ∈ w.bs, NonEmpty b
  cnt : ∀ b ∈ w.bs, ∀ n ∈ b.count, n + w.d.ndim < 2 ^ 31
  small : w.d.ndim * prod w.d.dims < 2 ^ 63
  dset : a.dsets[w.did]? = some (some w.d)
  mix : cfg.share = true → ∀ p, a.epoch[r]? = some p → ∀ q, a.queue[r]? = some q →
    ∀ w' ∈ p ++ q, 1 < w'.bs.length → (Confined w ↔ Confined w')
  num : ∀ p, a.epoch[r]? = some p → ∀ q, a.queue[r]? = some q → (p ++ q).length + 1 < 2 ^ 31

end Verif.Spec
