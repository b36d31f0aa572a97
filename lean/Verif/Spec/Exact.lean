import Verif.Spec.File

/-
Which datasets can be read back when selections are recorded once: vocabulary.
-/

namespace Verif.Spec

/-- Two writes whose selections have the same recorded form: the same blocks, up to the record of writes confined to one, not empty once the
record is taken away; and, where several blocks are recorded as numbers, dimensions that give the same numbers. -/
structure SameEntry (cfg : Cfg) (x y : AW) : Prop where
  sel : SameSel x y
  kind : Confined x ↔ Confined y
  dims : 0 < y.d.ndim ∧ (Confined y → 1 < y.d.ndim)
  ext : cfg.selEncode = true → 1 < y.bs.length →
    (Confined y → x.d.dims.drop 2 = y.d.dims.drop 2) ∧ (¬ Confined y → x.d.dims.drop 1 = y.d.dims.drop 1)

/-- The write `x` is the first of the writes `prev` of a section with the recorded form of the selection of `y`. -/
def Origin (cfg : Cfg) (prev : List AW) (x y : AW) : Prop :=
  ∃ p q, prev = p ++ x :: q ∧ SameEntry cfg x y ∧ ∀ z ∈ p, ¬ SameEntry cfg z y

/-- What holds of every write of the file to a dataset and the write of its section, if any, that first had its selection. -/
def EachOrigin (cfg : Cfg) (a : AFile) (did : Nat) (P : AW → AW → Prop) : Prop :=
  cfg.share = true → ∀ p ∈ a.secs, ∀ prev y post, p = prev ++ y :: post → y.did = did → ∀ x, Origin cfg prev x y → P x y

/-- The compact index knows the blocks of all writes to the dataset: the dataset first written with a selection still exists, and a write
confined to a record does not repeat it in the same record. -/
def Legible (cfg : Cfg) (a : AFile) (did : Nat) : Prop :=
  EachOrigin cfg a did (fun x y => present a.dsets x.did = true ∧ ¬ (Confined y ∧ x.bs = y.bs))

/-- The record numbers of the writes to the dataset are below `2^31`. -/
def SmallRecords (a : AFile) (did : Nat) : Prop :=
  ∀ p ∈ a.secs, ∀ w ∈ p, w.did = did → Confined w → ∀ b ∈ w.bs, ∀ n, b.start.head? = some n → n < 2 ^ 31

/-- The list index can be built: for every write to a dataset that is present, the dataset first written with its selection is present. -/
def Buildable (cfg : Cfg) (a : AFile) : Prop :=
  ∀ did, present a.dsets did = true → EachOrigin cfg a did (fun x _ => present a.dsets x.did = true)

/-- The list index knows the offsets of all blocks of the writes to the dataset: selections of several blocks are repeated with elements of
the same size. -/
def Measured (cfg : Cfg) (a : AFile) (did : Nat) : Prop :=
  EachOrigin cfg a did (fun x y => x.d.esize = y.d.esize ∨ y.bs.length = 1)

/-- Conditions on the history under which requests can be served. -/
structure Served (cfg : Cfg) (compact : Bool) (a : AFile) (qs : List RReq) : Prop where
  build : compact = false → Buildable cfg a
  meas : compact = false → ∀ q ∈ qs, q.bs ≠ [] → Measured cfg a q.did
  leg : compact = true → ∀ q ∈ qs, q.bs ≠ [] → Legible cfg a q.did
  recs : compact = true → ∀ q ∈ qs, q.bs ≠ [] → SmallRecords a q.did

/-- Conditions on the history under which blocks of a dataset can be read. -/
structure Readable (cfg : Cfg) (compact : Bool) (a : AFile) (did : Nat) : Prop where
  build : compact = false → Buildable cfg a
  meas : compact = false → Measured cfg a did
  leg : compact = true → Legible cfg a did
  recs : compact = true → SmallRecords a did

end Verif.Spec
