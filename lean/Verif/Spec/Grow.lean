import Verif.Model.Grow

/-
Buffers that hold what they should.
-/

namespace Verif.Spec

/-- The buffer has exactly these bytes at its beginning, and their number is told. -/
def Filled (r : List (Option Byte) × Nat) (xs : List Byte) : Prop :=
  r.2 = xs.length ∧ r.1.take r.2 = xs.map some

/-- A compressor and a decompressor that belong together; nothing is compressed to nothing. -/
def Inverse (z : Zlib) (u : Unz) : Prop := ∀ x, z.comp x ≠ [] ∧ u.bytes (z.comp x) = x ∧ u.ends (z.comp x) = true

end Verif.Spec
