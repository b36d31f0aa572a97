import Verif.Model.Meta

/-
Merged write requests (metadata merging): src/H5VL_logi_nb.cpp L196-313, used by src/H5VL_log_dataseti.cpp L835 and L1005-1010.
Built without `ENABLE_ZLIB`.  `config` is `fp->config` with the bits of src/H5VL_log_filei.hpp L11-19.
-/

namespace Verif

/-- `H5VL_log_merged_wreq_t`.  `sel` are the bytes of the metadata buffer after the header and the number of blocks, `alloc` is
`meta_size_alloc`, `data` the bytes of the data blocks one after the other. -/
structure MReq where
  did : Nat
  flags : Flags
  nsel : Nat
  sel : List Byte
  alloc : Nat
  data : List Byte
deriving DecidableEq, Repr

/-- `hdr->meta_size`. -/
def MReq.metaSize (m : MReq) : Nat := hdrSize + 4 + m.sel.length

/-- The header of the entry once the flush has filled in the file offset (L665). -/
def MReq.hdr (m : MReq) (foff : Int) : Hdr :=
  { metaSize := m.metaSize, did := m.did, flags := m.flags, foff := foff, fsize := m.data.length }

/-- Bytes of the entry. -/
def MReq.bytes (m : MReq) (foff : Int) : List Byte :=
  (m.hdr foff).bytes ++ leN 4 m.nsel ++ m.sel

/-- The flags set by `init` (L217-227). -/
def mergedFlags (config ndim : Nat) : Flags :=
  ⟨true, decide (1 < ndim) && config.testBit 1, config.testBit 2, false, false⟩

/-- The test `flag & H5VL_FILEI_CONFIG_SEL_ENCODE` (L238, L288, L296): a bit of the configuration (0x02) tested in the flags of an
entry. -/
def encTest (f : Flags) : Bool := f.toNat.testBit 1

/-- `init` (L212-255); at least 32 blocks are reserved. -/
def mInit (config : Nat) (d : DInfo) (did nsel : Nat) : MReq :=
  let f := mergedFlags config d.ndim
  let n := if nsel < 32 then 32 else nsel
  { did := did, flags := f, nsel := 0,
    sel := if encTest f then putWords ((dsteps d.dims).take (d.ndim - 1)) else [],
    alloc := hdrSize + 4 + (if f.enc then 8 * (2 * n + d.ndim) else 8 * d.ndim * 2 * n),
    data := [] }

/-- The loop of `reserve` (L263-265): the buffer grows by a factor of 8.  At most `need` rounds. -/
def grow : Nat → Nat → Nat → Nat
  | 0, a, _ => a
  | k + 1, a, need => if a < need then grow k (a * 8) need else a

/-- `append` (L277-313) with `reserve` (L261-275).  Bytes stored behind the buffer are undefined behaviour. -/
def mAppend (d : DInfo) (m : MReq) (bs : List Blk) (data : List Byte) : Res MReq :=
  let msize := if encTest m.flags then bs.length * 2 * 8 else bs.length * 2 * 8 * d.ndim
  let alloc := if m.alloc < m.metaSize + msize then grow (m.metaSize + msize) m.alloc (m.metaSize + msize) else m.alloc
  let ws := if encTest m.flags then encWords (dsteps d.dims) 0 bs else plainWords 0 bs
  if alloc < m.metaSize + 8 * ws.length then .ub
  else .ok { m with nsel := m.nsel + bs.length, sel := m.sel ++ putWords ws, alloc := alloc, data := m.data ++ data }

/-- A write with merging on (src/H5VL_log_dataseti.cpp L829, L835, L1005-1010).  `cur` is the merged request of the dataset.  The
test `config ^ H5VL_FILEI_CONFIG_METADATA_MERGE` skips the set-up of the data block exactly when no other option is on;
buffer and size of the request are then uninitialised. -/
def mergeWrite (config : Nat) (d : DInfo) (did : Nat) (cur : Option MReq) (bs : List Blk) (data : List Byte) :
    Res (Option MReq) :=
  if bs = [] then .ok cur
  else if config ^^^ 1 = 0 then .ub
  else do
    let m ← mAppend d (cur.getD (mInit config d did 1)) bs data
    return some m

/-- Writes to one dataset between two flushes. -/
def mergeRun (config : Nat) (d : DInfo) (did : Nat) : Option MReq → List (List Blk × List Byte) → Res (Option MReq)
  | cur, [] => .ok cur
  | cur, w :: ws => do
    let m ← mergeWrite config d did cur w.1 w.2
    mergeRun config d did m ws

end Verif
