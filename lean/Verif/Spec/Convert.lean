import Verif.Model.Convert

/-
What the HDF5 documentation says about transfers with another type in memory: atoms are converted; members of compounds are matched by
name, and members that the source does not have keep the value they had.
-/

namespace Verif.Spec.Convert

open Verif Verif.Convert

/-- `new` is what becomes of an element `old` of type `dst` when `x` of type `src` is transferred to it. -/
def Moved (L : Lib) (src dst : CType) (x old new : List Byte) : Prop :=
  match src, dst with
  | .atom a, .atom b => ∃ f, L.conv a b = some f ∧ new = f x
  | .compound ms, .compound ds => new.length = membersSize ds ∧ ∀ k b, (k, b) ∈ ds → ∃ v, member ds k new = some (b, v) ∧
      match member ms k x with
      | some (a, y) => ∃ f, L.conv a b = some f ∧ v = f y
      | none => member ds k old = some (b, v)
  | _, _ => False

/-- Conversions give elements of the size of their type. -/
def Sized (L : Lib) : Prop := ∀ a b f, L.conv a b = some f → ∀ x, (f x).length = b.size

/-- The names of the members of a compound are different. -/
def Proper : CType → Prop
  | .atom _ => True
  | .compound ms => (ms.map (·.1)).Nodup

/-- Every member of `dst` is a member of `src`. -/
def Covers : CType → CType → Prop
  | .compound ms, .compound ds => ∀ k b, (k, b) ∈ ds → ∃ a, (k, a) ∈ ms
  | _, _ => True

end Verif.Spec.Convert
