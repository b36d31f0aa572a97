import Verif.Model.Rank

/-
Memory of a write request: what `H5VL_log_wreq_t (dset, sels)` (src/H5VL_logi_nb.cpp L42-154) allocates and where it stores, with the number of
blocks as the `int` that the application has passed to H5Dwrite_n (src/H5VL_log.cpp L72-101, src/H5VL_log_dataset.cpp L598-606), followed by the
reference to an earlier request (src/H5VL_log_dataseti.cpp L858-877, L919-922), the size (L1012) and the offset (src/H5VL_logi_nb.cpp L669) of
the data.  Little-endian hosts, built without `ENABLE_ZLIB`, no merging.
-/

namespace Verif.WMem
open Verif

/-- An `int` expression: undefined if the value does not fit. -/
def asInt (x : Int) : Res Int := if -2147483648 ≤ x ∧ x < 2147483648 then .ok x else .ub

/-- A piece of memory; `none`: not initialised. -/
abbrev Buf := List (Option Byte)

/-- Store at an offset; undefined outside the memory. -/
def store (m : Buf) (off : Nat) (b : List Byte) : Res Buf :=
  if off + b.length ≤ m.length then .ok (m.take off ++ b.map some ++ m.drop (off + b.length)) else .ub

/-- Load of `n` bytes; undefined outside the memory, or if the bytes have not been initialised. -/
def load (m : Buf) (off n : Nat) : Res (List Byte) :=
  if off + n ≤ m.length then
    match ((m.drop off).take n).mapM id with
    | some b => .ok b
    | none => .ub
  else .ub

/-- Consecutive stores. -/
def storeAll : Buf → Nat → List (List Byte) → Res Buf
  | m, _, [] => .ok m
  | m, off, b :: bs => (store m off b).bind fun m => storeAll m (off + b.length) bs

/-- `meta_buf`, `sel_buf - meta_buf` and `hdr->flag`. -/
structure Req where
  buf : Buf
  selOff : Nat
  flags : Flags
deriving DecidableEq, Repr

/-- Flags (L55-83). `sel`: the blocks, as far as `n` counts them. -/
def flagsOf (cfg : Cfg) (d : DInfo) (n : Int) (sel : List Blk) : Flags :=
  let encdim : Int := (d.ndim : Int) - if (recOf d sel).isSome then 1 else 0
  { mul := decide (1 < n), enc := decide (1 < n) && decide (1 < encdim) && cfg.selEncode, defl := false, ref := false,
    recd := (recOf d sel).isSome }

/-- Number of words of the selection, as an `int` (L94-98). -/
def wordsOf (f : Flags) (encdim n : Int) : Res Int :=
  if f.enc then (asInt (n * 2)).bind fun a => asInt (encdim - 1 + a)
  else (asInt (encdim * n)).bind fun a => asInt (a * 2)

/-- `mbsize`, a `size_t` (L86-98). -/
def mbsize (f : Flags) (w : Int) : Nat :=
  ((28 + (if f.recd then 8 else 0) + (if f.mul then 4 else 0) + 8 * w) % 18446744073709551616).toNat

/-- The stores of `H5VL_log_selections::encode` (src/H5VL_logi_dataspace.cpp L655-681), and before them those of the number of blocks and
of `dsteps` (src/H5VL_logi_nb.cpp L120-142). -/
def selStores (f : Flags) (d : DInfo) (n : Int) (sel : List Blk) : List (List Byte) :=
  let r := if f.recd then 1 else 0
  (if f.mul then [sleN 4 n] else []) ++
  (if f.enc then
    [putWords (((dsteps d.dims).drop r).take (d.ndim - r - 1))] ++
    sel.map (fun b => leN 8 (selEncode ((dsteps d.dims).drop r) (b.start.drop r))) ++
    sel.map (fun b => leN 8 (selEncode ((dsteps d.dims).drop r) (b.count.drop r)))
  else sel.map (fun b => putWords (b.start.drop r)) ++ sel.map (fun b => putWords (b.count.drop r)))

/-- Header and record number (L102-117). -/
def hdrStores (f : Flags) (did mb recnum : Nat) (m : Buf) : Res Buf :=
  (store m 4 (sleN 4 did)).bind fun m => (store m 8 (leN 4 f.toNat)).bind fun m => (store m 0 (sleN 4 mb)).bind fun m =>
    if f.recd then store m 28 (leN 8 recnum) else .ok m

/-- The constructor.  `bs`: the blocks in the arrays of the application; `n`: how many of them the call names; `lim`: `malloc` fails for more
than `lim` bytes. -/
def make (lim : Nat) (cfg : Cfg) (d : DInfo) (did : Nat) (n : Int) (bs : List Blk) : Res Req :=
  if (bs.length : Int) < n then .ub
  else
    let sel := bs.take n.toNat
    let f := flagsOf cfg d n sel
    (wordsOf f ((d.ndim : Int) - if f.recd then 1 else 0) n).bind fun w =>
      let mb := mbsize f w
      if lim < mb then .err
      else
        (hdrStores f did mb ((recOf d sel).getD 0) (List.replicate mb none)).bind fun m =>
          let so := 28 + if f.recd then 8 else 0
          (storeAll m so (selStores f d n sel)).bind fun m => .ok ⟨m, so, f⟩

/-- Whether the record numbers of both requests are the same (src/H5VL_log_dataseti.cpp L861-866). -/
def sameRec (r k : Req) : Res Bool :=
  if r.flags.recd && k.flags.recd then
    (load r.buf 28 8).bind fun a => (load k.buf 28 8).bind fun b => .ok (decide (a = b))
  else .ok false

/-- Reference to the request `k`, `rel` bytes away (src/H5VL_log_dataseti.cpp L858-877), and `resize` (L919-922, src/H5VL_logi_nb.cpp
L160-172). -/
def refer (r k : Req) (rel : Int) : Res Req :=
  (sameRec r k).bind fun full =>
    let f := { r.flags with ref := true, defl := false, recd := r.flags.recd && !full }
    let so := if full then r.selOff - 8 else r.selOff
    (store r.buf 8 (leN 4 f.toNat)).bind fun m =>
      (store m so (sleN 8 rel)).bind fun m =>
        if so + 8 < m.length then (store (m.take (so + 8)) 0 (sleN 4 (so + 8 : Nat))).bind fun m => .ok ⟨m, so, f⟩
        else .ok ⟨m, so, f⟩

/-- Size of the data (src/H5VL_log_dataseti.cpp L1012), and its offset when it is flushed (src/H5VL_logi_nb.cpp L669). -/
def place (r : Req) (fsize : Nat) (foff : Int) : Res Buf :=
  (store r.buf 20 (sleN 8 fsize)).bind fun m => store m 12 (sleN 8 foff)

end Verif.WMem
