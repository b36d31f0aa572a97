import Verif.Model.Stack

/-
C90: what connector information stands for.
-/

namespace Verif.Stack
open Conn

/-- The connectors below, from top to bottom, and the information of the lowest one. -/
def Lib.stack (L : Lib) : CInfo → List (Option Nat) × Option Nat
  | .null => ([], none)
  | .own n => ([], some n)
  | .log c i => (L.cls c :: (L.stack i).1, (L.stack i).2)

/-- Information of class `k` in which all identifiers are valid. -/
def Lib.Of (L : Lib) : Nat → CInfo → Prop
  | _, .null => True
  | k, .own _ => k ≠ L.log
  | k, .log c i => k = L.log ∧ ∃ k', L.cls c = some k' ∧ L.Of k' i

/-- The comparisons of the other connectors are strict orders. -/
structure Lib.Orders (L : Lib) : Prop where
  zero : ∀ k n m, L.cmpOwn k n m = 0 ↔ n = m
  anti : ∀ k n m, L.cmpOwn k n m < 0 ↔ 0 < L.cmpOwn k m n
  trans : ∀ k n m p, L.cmpOwn k n m < 0 → L.cmpOwn k m p < 0 → L.cmpOwn k n p < 0

/-- Classes in use are found by their value. -/
def Lib.Finds (L : Lib) : Prop := ∀ c v, L.cls c = some v → ∃ d, L.find v = some d ∧ L.cls d = some v

/-- Information that can be printed: values below ten million, and text for the information of the lowest connector that this connector reads
again. -/
def Lib.Printable (L : Lib) : Nat → CInfo → Prop
  | _, .null => True
  | k, .own n => ∃ s, L.text k n = some s ∧ s ≠ [] ∧ L.parse k s = some n
  | _, .log c i => ∃ k', L.cls c = some k' ∧ k' < 10000000 ∧ L.Printable k' i

/-- Information of class `k`; identifiers need not be valid. -/
def Lib.Typed (L : Lib) : Nat → CInfo → Prop
  | _, .null => True
  | k, .own _ => k ≠ L.log
  | k, .log c i => k = L.log ∧ ∀ k', L.cls c = some k' → L.Typed k' i

/-- Somewhere in the stack there is an identifier that is not valid, or a class with a value of eight digits or more. -/
def Lib.Unprintable (L : Lib) : CInfo → Prop
  | .log c i => L.cls c = none ∨ ∃ a, L.cls c = some a ∧ (10000000 ≤ a ∨ L.Unprintable i)
  | _ => False

/-- Depth of a stack. -/
def depth : CInfo → Nat
  | .log _ i => depth i + 1
  | _ => 0

end Verif.Stack
