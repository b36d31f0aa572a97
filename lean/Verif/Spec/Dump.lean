import Verif.Spec.File
import Verif.Model.Dump

/-
What h5ldump must print.
-/

namespace Verif.Spec

/-- The entry printed for a write: its dataset, its blocks in order, the size of its data and, if data is printed, for every
block the bytes written to it. -/
structure Printed (withData : Bool) (w : AW) (e : PEnt) : Prop where
  did : e.did = w.did
  size : e.fsize = w.data.length
  blks : e.blks.map (·.blk) = w.bs
  shown : ∀ p ∈ e.blks, p.data.isSome = withData
  part : withData = true → ∀ p ∈ e.blks, ∀ x, p.data = some x → x.length = p.blk.size * w.d.esize
  data : withData = true → (e.blks.map (fun p => p.data.getD [])).flatten = w.data

/-- The objects of a file: every present dataset has an object with a name that is not skipped, and all other objects that
are not skipped are no datasets. -/
structure Lists (objs : List VObj) (dsets : DSets) : Prop where
  all : ∀ (i : Nat) d, dsets[i]? = some (some d) → ∃ o ∈ objs, dumpSkips o.path = false ∧ o.dset = some (some (i, d))
  only : ∀ o ∈ objs, dumpSkips o.path = false → ∀ x, o.dset = some x → ∃ i d, x = some (i, d) ∧ dsets[i]? = some (some d)

end Verif.Spec
