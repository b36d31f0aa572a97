import Verif.Spec.File

/-
What a dataset holds if its extent counts, as in HDF5: calls with blocks outside the extent fail, cells cut off by H5Dset_extent are gone, and
cells it adds hold the fill value.
-/

namespace Verif.Spec

/-- The cell lies inside an extent. -/
def inside : List Nat → List Nat → Bool
  | [], [] => true
  | n :: ns, x :: xs => decide (x < n) && inside ns xs
  | _, _ => false

/-- A block with this start and count lies inside an extent. -/
def fits : List Nat → List Nat → List Nat → Bool
  | [], [], [] => true
  | n :: ns, s :: ss, c :: cs => decide (s + c ≤ n) && fits ns ss cs
  | _, _, _ => false

/-- No dimension becomes smaller. -/
def grows : List Nat → List Nat → Bool
  | [], [] => true
  | n :: ns, m :: ms => decide (n ≤ m) && grows ns ms
  | _, _ => false

/-- What happens to the datasets of a file. -/
inductive XEv
  | write (w : AW)
  | extent (did : Nat) (dims : List Nat)

/-- The writes among the events. -/
def xwrites (evs : List XEv) : List AW := evs.filterMap fun e => match e with | .write w => some w | .extent _ _ => none

/-- Extent of dataset `did`, and byte `k` of its cell `c`, after one more event. -/
def xstep (did : Nat) (c : List Nat) (k : Nat) (s : List Nat × Option Byte) : XEv → List Nat × Option Byte
  | .write w => (s.1, if w.did = did ∧ w.bs.all (fun b => fits s.1 b.start b.count) = true then (cellByte w c k).or s.2 else s.2)
  | .extent i dims => if i = did then (dims, if inside dims c then s.2 else none) else s

/-- Byte `k` of cell `c` of dataset `did`, created with extent `dims`; `none` if it holds the fill value. -/
def xcell (dims : List Nat) (evs : List XEv) (did : Nat) (c : List Nat) (k : Nat) : Option Byte := (evs.foldl (xstep did c k) (dims, none)).2

/-- Extent in the end. -/
def xdims (did : Nat) : List Nat → List XEv → List Nat
  | dims, [] => dims
  | dims, .write _ :: evs => xdims did dims evs
  | dims, .extent i dims' :: evs => xdims did (if i = did then dims' else dims) evs

/-- All writes to the dataset are inside the extent it has then, which never shrinks. -/
def XTame (did : Nat) : List Nat → List XEv → Prop
  | _, [] => True
  | dims, .write w :: evs => (w.did = did → ∀ b ∈ w.bs, fits dims b.start b.count = true) ∧ XTame did dims evs
  | dims, .extent i dims' :: evs => (i = did → grows dims dims' = true) ∧ XTame did (if i = did then dims' else dims) evs

/-- The byte a read must return for a cell that holds `v`. -/
def shown (v : Option Byte) (fill : Option (List Byte)) (k : Nat) (old : Byte) : Byte :=
  match v with
  | some b => b
  | none => match fill with
    | some fv => (fv[k]?).getD old
    | none => old

end Verif.Spec
