import Verif.Spec.Meta

/-
Specification vocabulary: writes as issued by the application.
-/

namespace Verif.Spec

/-- A write request of the application: dataset id, description of the dataset at the time of the
write, selected blocks and the bytes of the elements (in file representation, block after block,
row-major inside a block). -/
structure AW where
  did : Nat
  d : DInfo
  bs : List Blk
  data : List Byte
deriving DecidableEq, Repr

/-- The data has one element per selected cell. -/
def AW.Exact (w : AW) : Prop := w.data.length = w.d.esize * (w.bs.map Blk.size).sum

/-- The data has an element for every selected cell, and no more if there is one block. -/
def AW.Sized (w : AW) : Prop :=
  w.d.esize * (w.bs.map Blk.size).sum ≤ w.data.length ∧ (w.bs.length = 1 → w.Exact)

theorem AW.Exact.sized {w : AW} (h : w.Exact) : w.Sized := ⟨Nat.le_of_eq h.symm, fun _ => h⟩

end Verif.Spec
