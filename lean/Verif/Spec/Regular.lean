/-
Regular hyperslabs, given by stride, count and block in every dimension, the slowest dimension first: which of them
are normalised without loss.  The definitions speak about the numbers of the hyperslab only.
-/

namespace Verif.Spec

/-- The cells form one box: in every dimension there is one block or the blocks touch. -/
def Solid : List Nat → List Nat → List Nat → Prop
  | t :: ts, c :: cs, b :: bs => (c = 1 ∨ t = b) ∧ Solid ts cs bs
  | _, _, _ => True

/-- No two rows can be joined: whenever all the following dimensions form one box, the cells of this dimension are
apart. -/
def Calm : List Nat → List Nat → List Nat → Prop
  | t :: ts, c :: cs, b :: bs => (ts ≠ [] → Solid ts cs bs → b = 1 ∧ (c = 1 ∨ t ≠ b)) ∧ Calm ts cs bs
  | _, _, _ => True

/-- Whatever is broken into rows has no rows that can be joined. -/
def Quiet : List Nat → List Nat → List Nat → Prop
  | _ :: ts, _ :: cs, b :: bs =>
    Solid ts cs bs ∨ (b = 1 ∧ Quiet ts cs bs) ∨ (b ≠ 1 ∧ Calm ts cs bs)
  | _, _, _ => True

/-- As `Quiet`, except for what comes last. -/
def Safe : List Nat → List Nat → List Nat → Prop
  | _ :: ts, c :: cs, b :: bs =>
    Solid ts cs bs ∨ (b = 1 ∧ ((c = 1 ∧ Safe ts cs bs) ∨ Quiet ts cs bs)) ∨ (b ≠ 1 ∧ (c = 1 ∨ Calm ts cs bs))
  | _, _, _ => True

end Verif.Spec
