import Verif.Spec.Meta

/-
Blocks that span whole dimensions.
-/

namespace Verif.Spec

/-- The block spans the whole of a dimension, from dimension `k` on. -/
def spansWhole (k : Nat) (dims : List Nat) (b : Blk) : Bool :=
  ((b.count.zip dims).drop k).any (fun p => decide (p.2 ≤ p.1))

end Verif.Spec
