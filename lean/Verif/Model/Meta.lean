import Verif.Model.Bytes

/-
Metadata entries: header, selection encoding, construction by a write, decoding by a reader.
-/

namespace Verif

/-- A selected block (hyperslab block): `start[0..ndim)`, `count[0..ndim)`.
src/H5VL_logi_dataspace.hpp `H5VL_log_selections::starts/counts`; `hsize_t` values are `Nat` here,
fixed-width effects appear where values are stored as bytes. -/
structure Blk where
  start : List Nat
  count : List Nat
deriving DecidableEq, Repr

/-- Product of a list of counts (the loops `for (..) size *= count[i]`). -/
def prod (l : List Nat) : Nat := l.foldr (· * ·) 1

/-- Number of elements of a block. -/
def Blk.size (b : Blk) : Nat := prod b.count

/-- Dataset description, src/H5VL_log_dataset.hpp `H5VL_log_dset_info_t` (dims, mdims, esize).
`mdims` uses `none` for `H5S_UNLIMITED`.  Types, filters and fill value are modelled elsewhere. -/
structure DInfo where
  dims : List Nat
  mdims : List (Option Nat)
  esize : Nat
deriving DecidableEq, Repr

/-- `dip->ndim`. -/
def DInfo.ndim (d : DInfo) : Nat := d.dims.length

/-- `dip->dsteps`: src/H5VL_log_dataseti.cpp L724-729, src/H5VL_log_dataset.cpp L545-549.
The code fills the array from the last dimension (`1`) backwards, `dsteps[i] = dsteps[i+1]*dims[i+1]`. -/
def dsteps : List Nat → List Nat
  | [] => []
  | _ :: ds => prod ds :: dsteps ds

/-- Metadata flags, src/H5VL_logi_meta.hpp L22-25 and src/H5VL_logi_nb.hpp L21-22. -/
structure Flags where
  mul : Bool    -- 0x01 MUL_SEL
  enc : Bool    -- 0x04 SEL_ENCODE
  defl : Bool   -- 0x08 SEL_DEFLATE
  ref : Bool    -- 0x10 SEL_REF
  recd : Bool    -- 0x20 REC
deriving DecidableEq, Repr

/-- The integer stored in `hdr.flag`. -/
def Flags.toNat (f : Flags) : Nat :=
  (if f.mul then 0x01 else 0) + (if f.enc then 0x04 else 0) + (if f.defl then 0x08 else 0)
    + (if f.ref then 0x10 else 0) + (if f.recd then 0x20 else 0)

/-- The tests `hdr.flag & FLAG`. -/
def Flags.ofNat (n : Nat) : Flags :=
  { mul := n.testBit 0, enc := n.testBit 2, defl := n.testBit 3, ref := n.testBit 4,
    recd := n.testBit 5 }

/-- src/H5VL_logi_meta.hpp L27-33 `H5VL_logi_meta_hdr` (packed, 28 bytes). -/
structure Hdr where
  metaSize : Int   -- int32_t
  did : Int        -- int32_t
  flags : Flags    -- int32_t
  foff : Int       -- MPI_Offset
  fsize : Int      -- MPI_Offset
deriving DecidableEq, Repr

/-- `sizeof (H5VL_logi_meta_hdr)`: three 4-byte and two 8-byte fields, packed. -/
def hdrSize : Nat := 28

/-- Memory image of the header, src/H5VL_logi_meta.hpp L27-33. -/
def Hdr.bytes (h : Hdr) : List Byte :=
  sleN 4 h.metaSize ++ sleN 4 h.did ++ leN 4 h.flags.toNat ++ sleN 8 h.foff ++ sleN 8 h.fsize

/-- `block.hdr = *((H5VL_logi_meta_hdr *)bufp)`, src/H5VL_logi_meta.cpp L37, L120. -/
def rdHdr (buf : List Byte) (ent : Nat) : Res Hdr := do
  let b ← rd buf ent hdrSize
  return { metaSize := unsle (b.take 4)
           did := unsle ((b.drop 4).take 4)
           flags := Flags.ofNat (unle ((b.drop 8).take 4))
           foff := unsle ((b.drop 12).take 8)
           fsize := unsle ((b.drop 20).take 8) }

/-- src/H5VL_logi_meta.hpp L57-63 `H5VL_logi_sel_encode`. -/
def selEncode : List Nat → List Nat → Nat
  | s :: ss, c :: cs => c * s + selEncode ss cs
  | _, _ => 0

/-- src/H5VL_logi_meta.hpp L49-55 `H5VL_logi_sel_decode`; division by zero is undefined. -/
def selDecode : List Nat → Nat → Res (List Nat)
  | [], _ => .ok []
  | s :: ss, off =>
    if s = 0 then .ub else do
      let r ← selDecode ss (off % s)
      return off / s :: r

/-- A decoded block: src/H5VL_logi_meta.hpp L35-40 `H5VL_logi_metasel_t`. -/
structure MSel where
  start : List Nat
  count : List Nat
  doff : Nat
deriving DecidableEq, Repr

/-- A decoded entry: src/H5VL_logi_meta.hpp L42-47 `H5VL_logi_metaentry_t`. -/
structure MEnt where
  hdr : Hdr
  sels : List MSel
  dsize : Nat
deriving DecidableEq, Repr

/-! ### The write side -/

/-- File configuration bits that influence the metadata of a write
(src/H5VL_log_filei.hpp `H5VL_FILEI_CONFIG_*`). -/
structure Cfg where
  selEncode : Bool    -- 0x02
  share : Bool        -- 0x08
deriving DecidableEq, Repr

/-- Record-write test, src/H5VL_logi_nb.cpp L59-71: first dimension unlimited and all blocks have
`count[0] = 1` and the same `start[0]`. Returns the record number. -/
def recOf (d : DInfo) (bs : List Blk) : Option Nat :=
  if d.ndim ≠ 0 ∧ d.mdims.head? = some none then
    match bs with
    | [] => none
    | b :: _ =>
      if bs.all (fun x => x.count.head? == some 1 && x.start.head? == b.start.head?) then
        b.start.head?
      else none
  else none

/-- Coordinates written for a block list (`H5VL_log_selections::encode`,
src/H5VL_logi_dataspace.cpp L655-681): all starts, then all counts; `dimoff` leading dimensions are
skipped. Without `dsteps`: raw coordinates. -/
def plainWords (dimoff : Nat) (bs : List Blk) : List Nat :=
  bs.flatMap (fun b => b.start.drop dimoff) ++ bs.flatMap (fun b => b.count.drop dimoff)

/-- Same with `dsteps`: one mixed-radix number per start and per count. -/
def encWords (steps : List Nat) (dimoff : Nat) (bs : List Blk) : List Nat :=
  bs.map (fun b => selEncode (steps.drop dimoff) (b.start.drop dimoff))
    ++ bs.map (fun b => selEncode (steps.drop dimoff) (b.count.drop dimoff))

/-- A write request, src/H5VL_logi_nb.hpp `H5VL_log_wreq_t` (with the data block
`H5VL_log_req_data_block_t` already in file representation).  `selBuf` are the bytes from
`sel_buf` to the end of the metadata buffer; the bytes before are the header and, for record
entries, the record number. `fsize` is the size of the data. -/
structure WReq where
  did : Nat
  flags : Flags
  recnum : Nat          -- meaningful when `flags.recd`
  selBuf : List Byte
  metaOff : Nat         -- `meta_off`
  foff : Int
  data : List Byte      -- bytes at `xbuf`
deriving DecidableEq, Repr

/-- `sel_buf - meta_buf`. -/
def WReq.selOff (r : WReq) : Nat := hdrSize + if r.flags.recd then 8 else 0

/-- `hdr->meta_size`. -/
def WReq.metaSize (r : WReq) : Nat := r.selOff + r.selBuf.length

/-- Bytes of the metadata buffer. -/
def WReq.bytes (r : WReq) : List Byte :=
  ({ metaSize := r.metaSize, did := r.did, flags := r.flags, foff := r.foff,
     fsize := r.data.length } : Hdr).bytes
    ++ (if r.flags.recd then leN 8 r.recnum else []) ++ r.selBuf

/-- Bytes from `sel_buf` on, as written by the constructor, src/H5VL_logi_nb.cpp L119-153:
block count (if more than one block), radix table and coordinates. -/
def selBytes (cfg : Cfg) (d : DInfo) (bs : List Blk) : List Byte :=
  let r := if (recOf d bs).isSome then 1 else 0
  let encdim := d.ndim - r
  let mul := decide (1 < bs.length)
  let enc := mul && decide (1 < encdim) && cfg.selEncode
  (if mul then leN 4 bs.length else [])
    ++ (if enc then
          putWords (((dsteps d.dims).drop r).take (encdim - 1))
            ++ putWords (encWords (dsteps d.dims) r bs)
        else putWords (plainWords r bs))

/-- Flags set by the constructor, src/H5VL_logi_nb.cpp L55-83. Built without `ENABLE_ZLIB`, so
`SEL_DEFLATE` is never set here (see `mkWReqZ` in Model/Zip for the other build). -/
def wreqFlags (cfg : Cfg) (d : DInfo) (bs : List Blk) : Flags :=
  let r := if (recOf d bs).isSome then 1 else 0
  let encdim := d.ndim - r
  let mul := decide (1 < bs.length)
  { mul := mul, enc := mul && decide (1 < encdim) && cfg.selEncode, defl := false, ref := false,
    recd := (recOf d bs).isSome }

/-- Constructor `H5VL_log_wreq_t (dset, sels)`, src/H5VL_logi_nb.cpp L42-154. The constructor leaves
`hdr->foff` uninitialised until the flush; here it is 0. -/
def mkWReq (cfg : Cfg) (d : DInfo) (did : Nat) (bs : List Blk) (mdsize : Nat) (data : List Byte) :
    WReq :=
  { did := did, flags := wreqFlags cfg d bs, recnum := (recOf d bs).getD 0,
    selBuf := selBytes cfg d bs, metaOff := mdsize, foff := 0, data := data }

/-! ### The read side -/

/-- Cut a list in `n` pieces of length `k`. -/
def chunks : Nat → Nat → List Nat → List (List Nat)
  | _, 0, _ => []
  | k, n + 1, l => l.take k :: chunks k n (l.drop k)

/-- `mapM` for `Res`, spelled out. -/
def mapRes {α β : Type} (f : α → Res β) : List α → Res (List β)
  | [] => .ok []
  | a :: as => do
    let b ← f a
    let bs ← mapRes f as
    return b :: bs

/-- Byte offsets of the blocks inside the data block, src/H5VL_logi_meta.cpp L263-272:
`doff[i] = esize * prod (count[i-1]) + doff[i-1]`. `acc` is the offset of the first block. -/
def addDoffs (esize : Nat) : Nat → List (List Nat × List Nat) → List MSel
  | _, [] => []
  | acc, (s, c) :: r => { start := s, count := c, doff := acc } :: addDoffs esize (acc + esize * prod c) r

/-- Leading coordinate of record entries, src/H5VL_logi_meta.cpp L239-245 (`start[0] = recnum`,
`count[0] = 1`). -/
def recFix (recnum : Option Nat) (x : Nat) (l : List Nat) : List Nat :=
  match recnum with
  | some _ => x :: l
  | none => l

/-- Start and count vectors from the coordinate words of an entry, src/H5VL_logi_meta.cpp L199-237:
either raw coordinates or the radix table (`encdim - 1` numbers, the last radix weight is 1)
followed by one number per vector. -/
def rawCoords (enc : Bool) (encdim nsel : Nat) (ws : List Nat) :
    Res (List (List Nat) × List (List Nat)) :=
  if enc then do
    let steps := ws.take (encdim - 1) ++ [1]
    let cs := ws.drop (encdim - 1)
    let starts ← mapRes (selDecode steps) (cs.take nsel)
    let counts ← mapRes (selDecode steps) ((cs.drop nsel).take nsel)
    return (starts, counts)
  else
    return (chunks encdim nsel ws, chunks encdim nsel (ws.drop (encdim * nsel)))

/-- Selections from the coordinate words of an entry, src/H5VL_logi_meta.cpp L199-275.
`recnum` is the record number of record entries. -/
def selsOfWords (d : DInfo) (enc : Bool) (encdim nsel : Nat) (recnum : Option Nat)
    (ws : List Nat) : Res (List MSel) := do
  let sc ← rawCoords enc encdim nsel ws
  return addDoffs d.esize 0
    ((sc.1.map (recFix recnum (recnum.getD 0))).zip (sc.2.map (recFix recnum 1)))

/-- `dsize` of a decoded entry, src/H5VL_logi_meta.cpp L277-281: the product runs over the first
`encdim` counts only; an empty selection vector is accessed out of bounds. -/
def decDsize (d : DInfo) (encdim : Nat) (sels : List MSel) : Res Nat :=
  match sels.getLast? with
  | none => .ub
  | some s => .ok (d.esize * prod (s.count.take encdim) + s.doff)

/-- `H5VL_logi_metaentry_decode`, src/H5VL_logi_meta.cpp L92-282 (built without `ENABLE_ZLIB`:
a compressed entry is an error, L178). `buf` is the metadata buffer, `ent` the offset of the entry.
Coordinates are read as unsigned 64-bit numbers (the code stores them in `hsize_t`; the encoded
form divides them as signed numbers, equal below `2^63`). -/
def metaDecode (d : DInfo) (buf : List Byte) (ent : Nat) : Res MEnt := do
  let h ← rdHdr buf ent
  if h.metaSize ≤ 0 then .err else
  let p := ent + hdrSize
  if h.flags.recd = true ∧ d.ndim = 0 then .ub else
  let encdim := if h.flags.recd then d.ndim - 1 else d.ndim
  let recnum ← (if h.flags.recd then do
      let b ← rd buf p 8
      return some (unle b) else return none : Res (Option Nat))
  let p := if h.flags.recd then p + 8 else p
  let nsel ← (if h.flags.mul then do
      let b ← rd buf p 4
      return unsle b else return 1 : Res Int)
  let p := if h.flags.mul then p + 4 else p
  if h.flags.mul = true ∧ h.flags.defl = true then .err else
  if nsel < 0 then .ub else
  let nsel := nsel.toNat
  if h.flags.enc = true ∧ encdim = 0 then .ub else
  let nw := if h.flags.enc then (encdim - 1) + 2 * nsel else 2 * encdim * nsel
  let ws ← rdWords buf p nw
  let sels ← selsOfWords d h.flags.enc encdim nsel recnum ws
  let ds ← decDsize d encdim sels
  return { hdr := h, sels := sels, dsize := ds }

end Verif
