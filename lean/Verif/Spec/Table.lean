import Verif.Model.File

/-
The table at the beginning of a metadata dataset, read off its bytes: the number of sections, and where each of them ends.
-/

namespace Verif.Spec

/-- The bytes of an internal dataset. -/
def bytesOf (disk : Mem) (m : Ext) : List Byte := fileBytes disk m.addr m.size

/-- The number of sections. -/
def sectionsSaid (b : List Byte) : Nat := unle (b.take 8)

/-- Where section `k` ends. -/
def endSaid (b : List Byte) (k : Nat) : Nat := unle ((b.drop (8 + 8 * k)).take 8)

/-- Where the first section starts. -/
def bodyAt (b : List Byte) : Nat := 8 * (sectionsSaid b + 1)

/-- Same number of sections, not more than fit, and same bytes behind the table; the table may differ. -/
def SameBody (b b' : List Byte) : Prop :=
  bodyAt b ≤ b.length ∧ b.length = b'.length ∧ b.take 8 = b'.take 8 ∧ b.drop (bodyAt b) = b'.drop (bodyAt b)

/-- All sections together are loaded in one part: where the second one and those behind it are said to end is not more than
`lim` bytes behind the table. -/
def OnePart (lim : Nat) (b : List Byte) : Prop :=
  0 < sectionsSaid b ∧ ∀ k, 1 ≤ k → k < sectionsSaid b → bodyAt b ≤ endSaid b k ∧ endSaid b k ≤ bodyAt b + lim

/-- What a search finds. -/
def found (r : Res (List Hit × FState)) : Res (List Hit) := match r with | .ok v => .ok v.1 | .err => .err | .ub => .ub

end Verif.Spec
