import Verif.Model.Index

/-
Metadata as bytes, and what the first bytes of an entry say.
-/

namespace Verif.Spec

/-- The size that an entry says it has: the first four bytes. -/
def sizeField (x : List Byte) : Int := unsle (x.take 4)

/-- The number of the dataset: the next four bytes. -/
def numberField (x : List Byte) : Int := unsle ((x.drop 4).take 4)

/-- The bits that say what the entry looks like: the next four bytes. -/
def kindField (x : List Byte) : Nat := unle ((x.drop 8).take 4)

/-- Metadata that consists of whole entries: each says how long it is. -/
def WholeEntries (ps : List (List Byte)) : Prop := ∀ p ∈ ps, 28 ≤ p.length ∧ sizeField p = (p.length : Int)

/-- The entry names no dataset of the file. -/
def Foreign (dsets : DSets) (x : List Byte) : Prop := numberField x < 0 ∨ (dsets.length : Int) ≤ numberField x

/-- The entry names a dataset of the file that is there. -/
def Named (dsets : DSets) (x : List Byte) (d : DInfo) : Prop := ∃ n : Nat, numberField x = (n : Int) ∧ dsets[n]? = some (some d)

/-- The entry names a dataset that has been removed. -/
def NamedGone (dsets : DSets) (x : List Byte) : Prop := ∃ n : Nat, numberField x = (n : Int) ∧ dsets[n]? = some none

/-- The entry refers to the blocks of another one. -/
def refers (x : List Byte) : Bool := (kindField x).testBit 4

/-- Its blocks are compressed. -/
def packed (x : List Byte) : Bool := (kindField x).testBit 3

/-- The number of blocks it says it has, after the record number if there is one. -/
def blocksField (x : List Byte) : Int :=
  if (kindField x).testBit 0 then unsle ((x.drop (if (kindField x).testBit 5 then 36 else 28)).take 4) else 1

/-- How far behind this entry (before it, if negative) the entry is whose blocks it uses. -/
def refField (x : List Byte) : Int := unsle ((x.drop (if (kindField x).testBit 5 then 36 else 28)).take 8)

/-- There is an entry where `x`, after the entries `ps`, refers to. -/
def Target (ps : List (List Byte)) (x : List Byte) : Prop :=
  ∃ i < ps.length, ((ps.take i).flatten.length : Int) = ps.flatten.length + refField x

/-- The number of bytes that an entry for `ndim` dimensions needs for what it says it has. -/
def needs (ndim : Nat) (x : List Byte) : Nat :=
  let k := if (kindField x).testBit 5 then ndim - 1 else ndim
  28 + (if (kindField x).testBit 5 then 8 else 0) + (if (kindField x).testBit 0 then 4 else 0) +
    8 * (if (kindField x).testBit 2 then (k - 1) + 2 * (blocksField x).toNat else 2 * k * (blocksField x).toNat)

end Verif.Spec
