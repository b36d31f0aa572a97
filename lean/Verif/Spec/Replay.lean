import Verif.Spec.File

/-
Specification vocabulary for h5lreplay.
-/

namespace Verif.Spec

/-- The write covers the cell. -/
def Covers (did : Nat) (x : List Nat) (w : AW) : Prop := w.did = did ∧ ∃ b ∈ w.bs, InBlk b x

/-- Writes made by different processes, or in different epochs, have no common cell. -/
def NoRace (secs : List (List AW)) : Prop :=
  secs.Pairwise (fun p q => ∀ w ∈ p, ∀ w' ∈ q, ∀ did x, ¬ (Covers did x w ∧ Covers did x w'))

/-- The dataset is present and contains the blocks of the write with its present extent; no block is empty. -/
def FitsNow (dsets : DSets) (w : AW) : Prop :=
  ∃ d, dsets[w.did]? = some (some d) ∧ ∀ b ∈ w.bs, InExtent d.dims b ∧ NonEmpty b

/-- Number of sections of a metadata dataset: its first word. -/
def sectionsOf (disk : Mem) (m : Ext) : Nat := unle (fileBytes disk m.addr 8)

/-- What `H5Dread` through the native connector must find in the output file for the datasets of the input file. -/
def Reproduced (dsets : DSets) (done : List AW) (c : Nat → List Nat → Nat → Option Byte) : Prop :=
  ∀ did d, dsets[did]? = some (some d) → ∀ x k, k < d.esize → c did x k = lastByte done did x k

end Verif.Spec
