import Verif.Model.Types

/-
What an application means by the bytes of an element: the value they denote in its memory.
-/

namespace Verif.Spec.Types

open Verif Verif.Types

/-- The memory of the application; `none` where nothing is allocated. -/
abbrev Heap := Nat → Option Byte

inductive Val where
  | bytes (b : List Byte)
  | null
  | str (s : List Byte)
  | seq (l : List Val)
  | pair (a b : Val)

/-- `n` bytes at address `a`. -/
def Heap.get (h : Heap) (a n : Nat) : Option (List Byte) :=
  (List.range n).mapM fun i => h (a + i)

/-- The string at address `a`, up to its NUL, of at most `fuel` bytes. -/
def Heap.str (h : Heap) : Nat → Nat → Option (List Byte)
  | 0, _ => none
  | fuel + 1, a =>
    match h a with
    | none => none
    | some 0 => some []
    | some c => (Heap.str h fuel (a + 1)).map (c :: ·)

/-- The value of type `t` that the bytes `bs` denote in the memory `h`; `none` if finding it needs memory that is not there. -/
def val (h : Heap) : HType → List Byte → Option Val
  | .fixed n, bs => if bs.length < n then none else some (.bytes (bs.take n))
  | .vstr, bs =>
    if bs.length < 8 then none
    else if unle (bs.take 8) = 0 then some .null
    else (h.str (2 ^ 64) (unle (bs.take 8))).map .str
  | .vlen t, bs =>
    if bs.length < 16 then none
    else ((List.range (unle (bs.take 8))).mapM fun i =>
      (h.get (unle ((bs.drop 8).take 8) + i * t.size) t.size).bind (val h t)).map .seq
  | .pair a pad b, bs =>
    (val h a (bs.take a.size)).bind fun x => (val h b (bs.drop (a.size + pad))).map fun y => .pair x y

/-- Elements of the type contain no pointers. -/
def Flat : HType → Prop
  | .fixed _ => True
  | .vstr => False
  | .vlen _ => False
  | .pair a _ b => Flat a ∧ Flat b

/-- HDF5 has no types of size 0. -/
def WF : HType → Prop
  | .fixed n => 0 < n
  | .vstr => True
  | .vlen t => WF t
  | .pair a _ b => WF a ∧ WF b

/-- A value of type `t` written with the memory as `h` and read back, by the same or another process, with the memory as `h'`
is the value written. -/
def Comes (t : HType) (h h' : Heap) (buf : List Byte) : Prop :=
  ∀ v, val h t buf = some v → ∃ bs b, writeElem t buf = .ok bs ∧ readElem t bs = .ok b ∧ val h' t b = some v

end Verif.Spec.Types
