import Verif.Model.Read

/-
Reading through the under VOL: src/H5VL_log_dataseti.cpp L105-140 (`sel_space`) and L161-442, the part for a block that is
alone in its group (L305-351).
-/

namespace Verif

/-- A one-dimensional hyperslab: `count` blocks of `block` bytes, `stride` apart. -/
structure HSel where
  start : Nat
  stride : Nat
  count : Nat
  block : Nat
deriving DecidableEq, Repr

/-- Selected bytes in order. -/
def HSel.bytes (s : HSel) : List Nat :=
  (List.range s.count).flatMap (fun i => (List.range s.block).map (fun k => s.start + i * s.stride + k))

/-- `H5Sselect_hyperslab` rejects blocks that overlap. -/
def hyperslab (s : HSel) : Res HSel :=
  if 1 < s.count ∧ s.stride < s.block then .err else .ok s

/-- The loop L124-129: index of the first element and number of elements of the array. -/
def selLoop (starts sizes : List Nat) : Nat × Nat :=
  (starts.zip sizes).foldr (fun p a => (a.1 + p.1 * a.2, a.2 * p.2)) (0, 1)

/-- `sel_space` for `ndim > 0`.  Both divisions are undefined for 0. -/
def selSpace (start0 esize : Nat) (starts sizes counts : List Nat) : Res HSel :=
  match counts.getLast?, sizes.head? with
  | some cl, some s0 =>
    if cl = 0 then .ub
    else if 1 < prod counts / cl then
      if s0 = 0 then .ub
      else hyperslab ⟨start0 + (selLoop starts sizes).1 * esize, prod sizes / s0 * esize, prod counts / cl, cl * esize⟩
    else hyperslab ⟨start0 + (selLoop starts sizes).1 * esize, 1, prod counts / cl, cl * esize⟩
  | _, _ => .ub

/-- Read of a block through the under VOL: pairs of file address and memory address, in order.  `base` is the file address
of the log dataset and `ext` its size in bytes.  A selection outside of the extent is refused by the under VOL.  In the scalar
case the whole memory space of `fsize` bytes is used and must have the number of bytes of the file selection. -/
def passHit (base ext : Nat) (h : Hit) : Res (List (Int × Nat)) :=
  if h.d.ndim = 0 then
    if h.fsize = h.d.esize ∧ (h.key - base).toNat + h.d.esize ≤ ext then
      .ok ((List.range h.d.esize).map (fun k => (h.key + (k : Nat), h.xbuf + k)))
    else .err
  else do
    let f ← selSpace (h.key - base).toNat h.d.esize h.dstart h.dsize h.count
    let m ← selSpace 0 h.d.esize h.mstart h.msize h.count
    if f.bytes.all (fun b => decide (b < ext)) && m.bytes.all (fun b => decide (b < h.d.esize * prod h.msize)) then
      return (f.bytes.map (fun b => (base : Int) + (b : Nat))).zip (m.bytes.map (fun b => h.xbuf + b))
    else .err

end Verif
