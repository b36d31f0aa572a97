import Verif.Model.Index
import Verif.Model.Read

/-
Data filters: src/H5VL_logi_filter.cpp L20-128, src/H5VL_logi_filter_deflate.cpp L54-96, the filter part of
`H5VL_log_dataseti_write` (src/H5VL_log_dataseti.cpp L984-1000) and of `H5VL_log_nb_perform_read`
(src/H5VL_logi_nb.cpp L379-392, L428-482).

The compression library is a parameter: any function `comp` giving the complete compressed stream, and any function
`bound` (`deflateBound`).  Sizes are assumed to fit the C types.
-/

namespace Verif

/-- What the code uses of zlib. -/
structure Zlib where
  comp : List Byte → List Byte
  bound : Nat → Nat

/-- A filter of the pipeline (`H5VL_log_filter_t::id`): `H5Z_FILTER_DEFLATE`, or any other. -/
inductive FilterId where
  | deflate
  | other (id : Nat)
deriving DecidableEq, Repr

/-- A work buffer: allocated size, size known to the code (`bsize[]` or `size_out`), contents. -/
structure ZBuf where
  cap : Nat
  len : Nat
  bytes : List Byte
deriving DecidableEq, Repr

/-- A NULL buffer. -/
def ZBuf.null : ZBuf := ⟨0, 0, []⟩

/-- `H5VL_logi_filter_deflate_alloc` (L54-96): the buffer is used when `deflateBound` does not exceed the size passed in,
and replaced by a new one otherwise.  `deflate` does not reach the end of the stream if the bound is too small; writing
past the allocated size is undefined. -/
def deflateAlloc (z : Zlib) (x : List Byte) (dst : ZBuf) : Res ZBuf :=
  let n := z.bound x.length
  let fresh := decide (dst.len < n)
  let cap := if fresh then n else dst.cap
  let old := if fresh then [] else dst.bytes
  if n < (z.comp x).length then .err
  else if cap < (z.comp x).length then .ub
  else .ok ⟨cap, (z.comp x).length, z.comp x ++ old.drop (z.comp x).length⟩

/-- The two intermediate buffers with one of them replaced. -/
def setBuf (bufs : Bool → ZBuf) (k : Bool) (b : ZBuf) : Bool → ZBuf := fun j => if j = k then b else bufs j

/-- Parity `i & 1`. -/
def odd (i : Nat) : Bool := decide (i % 2 = 1)

/-- The loop of `H5VL_logi_filter` (L37-72), `i` the loop counter.  `*out` is NULL and `*out_len` is 0 at the only call. -/
def filterLoop (z : Zlib) (inp : List Byte) : List FilterId → Nat → (Bool → ZBuf) → Nat → Res (List Byte)
  | [], _, _, _ => .ok []
  | f :: fs, i, bufs, sizeIn =>
    let src := if i = 0 then inp else (bufs (odd i)).bytes.take sizeIn
    let dst := if fs = [] then ZBuf.null else bufs (odd (i + 1))
    if f ≠ .deflate then .err else do
      let out ← deflateAlloc z src dst
      if fs = [] then .ok (out.bytes.take out.len)
      else filterLoop z inp fs (i + 1) (setBuf bufs (odd (i + 1)) { out with len := max dst.len out.len }) out.len

/-- `H5VL_logi_filter` (L20-73). -/
def filter (z : Zlib) (pl : List FilterId) (inp : List Byte) : Res (List Byte) :=
  filterLoop z inp pl 0 (fun _ => ZBuf.null) 0

/-- The loop of `H5VL_logi_unfilter` (L92-127): `pl` are the filters still to do, last one first, `first` tells the first
iteration.  The loop counter is the number of filters after the current one.  The filter applied is
`H5VL_logi_filter_deflate_alloc`, as in `H5VL_logi_filter`. -/
def unfilterLoop (z : Zlib) (inp : List Byte) : List FilterId → Bool → (Bool → ZBuf) → Nat → Res (List Byte)
  | [], _, _, _ => .ok []
  | f :: fs, first, bufs, sizeIn =>
    let i := fs.length
    let src := if first then inp else (bufs (odd i)).bytes.take sizeIn
    let dst := if fs = [] then ZBuf.null else bufs (odd (i + 1))
    if f ≠ .deflate then .err else do
      let out ← deflateAlloc z src dst
      if fs = [] then .ok (out.bytes.take out.len)
      else unfilterLoop z inp fs false (setBuf bufs (odd (i + 1)) { out with len := max dst.len out.len }) out.len

/-- `H5VL_logi_unfilter` (L75-128). -/
def unfilter (z : Zlib) (pl : List FilterId) (inp : List Byte) : Res (List Byte) :=
  unfilterLoop z inp pl.reverse true (fun _ => ZBuf.null) 0

/-- Filter part of a write, src/H5VL_log_dataseti.cpp L984-1000: the bytes of the data block of the request. -/
def writeFilter (z : Zlib) (pl : List FilterId) (data : List Byte) : Res (List Byte) :=
  if pl = [] then .ok data else filter z pl data

/-- Unfiltering of a data block for one search result, src/H5VL_logi_nb.cpp L383 and L432-441: `zbuf` has
`max (xsize, fsize)` bytes; `stored` are the bytes read from the file. -/
def unfilterBlock (z : Zlib) (pl : List FilterId) (xsize : Nat) (stored : List Byte) : Res (List Byte) := do
  let out ← unfilter z pl stored
  if max xsize stored.length < out.length then .ub
  else .ok (out ++ stored.drop out.length)

/-- Copy of the selected part of the unfiltered block, L474-478: `MPI_Pack (…, tbuf, 1, …)` and `MPI_Unpack (tbuf, 1, …)`
with a buffer of one byte; packing more is an error of the program.  The list gives the bytes with their addresses. -/
def packBlock (h : Hit) (zbuf : List Byte) : Res (List (Nat × Byte)) := do
  let segs ← hitElems { h with foff := 0 }
  if 1 < h.d.esize * prod h.count then .ub
  else mapRes (fun s => match zbuf[s.f.toNat]? with
    | some b => .ok (s.m, b)
    | none => .ub) segs

/-- Delivery of one search result of a filtered dataset whose data block holds `stored`. -/
def readFiltered (z : Zlib) (pl : List FilterId) (h : Hit) (stored : List Byte) : Res (List (Nat × Byte)) := do
  let zb ← unfilterBlock z pl h.xsize stored
  packBlock h zb

end Verif
