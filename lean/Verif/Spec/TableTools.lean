import Verif.Spec.Table

/-
The sections that the table of a metadata dataset says, for the tools.
-/

namespace Verif.Spec

/-- Where section `k` starts: behind the table, or where the one before it ends. -/
def startSaid (b : List Byte) (k : Nat) : Nat := if k = 0 then bodyAt b else endSaid b (k - 1)

/-- The bytes of the dataset from one place to another. -/
def between (b : List Byte) (s e : Nat) : List Byte := (b.drop s).take (e - s)

/-- Section `k` does not end before its start nor behind the dataset. -/
def Within (b : List Byte) (k : Nat) : Prop := startSaid b k ≤ endSaid b k ∧ endSaid b k ≤ b.length

instance (b : List Byte) (k : Nat) : Decidable (Within b k) := inferInstanceAs (Decidable (_ ∧ _))

/-- Where the last section ends, as the tool reads it: the lower four bytes. -/
def lastEnd (b : List Byte) : Nat := endSaid b (sectionsSaid b - 1) % 2 ^ 32

/-- Where the share of process `r` of `np` starts and that of the process before it ends: behind the table, or where the section ends
that lies before it (the lower four bytes). -/
def cutAt (b : List Byte) (np r : Nat) : Nat :=
  if r * sectionsSaid b / np = 0 then bodyAt b else endSaid b (r * sectionsSaid b / np - 1) % 2 ^ 32

end Verif.Spec
