import Verif.Model.Bytes

/-
Specification of the aligned layout, independent of the code: the file is cut in stripes of `ssize` bytes, dealt in turn to `scount`
storage targets; the bytes of a target form its stream.
-/

namespace Verif.Spec

/-- Position in the file of byte `n` of the stream of target `t`, for data that starts at `doff`. -/
def stripePos (ssize scount t doff n : Nat) : Nat := doff + (n / ssize * scount + t) * ssize + n % ssize

/-- The bytes from `i` on, each with its position. -/
def placed (f : Nat → Nat) (i : Nat) : List Byte → List (Nat × Byte)
  | [] => []
  | b :: bs => (f i, b) :: placed f (i + 1) bs

/-- Two intervals of a stream have no byte in common. -/
def StreamsApart (a n b m : Nat) : Prop := ∀ x, ¬ ((a ≤ x ∧ x < a + n) ∧ (b ≤ x ∧ x < b + m))

end Verif.Spec
