import Verif.Model.Zip

/-
Compression and decompression into buffers that grow: `H5VL_log_zip_compress_alloc`, `H5VL_log_zip_decompress_alloc`
(src/H5VL_logi_zip.cpp L61-112, L155-204), `H5VL_logi_filter_inflate_alloc` (src/H5VL_logi_filter_deflate.cpp L134-191), and the
functions with a buffer of a given size, `H5VL_logi_filter_deflate` and `H5VL_logi_filter_inflate` (L19-48, L101-128).

zlib is a stream that delivers bytes, as many as fit at every call, and then says that it has ended, or never does because its
input is damaged or incomplete.  If the last bytes just fit it may say so only at the next call.
The connector offers these functions and calls none of them itself at this commit (`H5VL_logi_unfilter` calls the compression).
Simplified: allocations succeed, and a buffer given by the caller may be reallocated.
-/

namespace Verif

/-- Bytes are stored in a block of memory; `none`: not initialised. -/
def putAt (blk : List (Option Byte)) (p : Nat) (xs : List Byte) : List (Option Byte) :=
  blk.take p ++ xs.map some ++ blk.drop (p + xs.length)

/-- The `while (zerr != Z_STREAM_END)` loops: `i` calls made, `p` the place of `next_out` in the block of `bsize` bytes, `k` bytes
delivered.  `bsize` is an `int` and doubled whatever the reason was for which the stream has not ended. -/
def growLoop (all : List Byte) (good : Bool) (late : Nat → Bool) : Nat → Nat → Nat → Nat → List (Option Byte) →
    Res (List (Option Byte) × Nat)
  | 0, _, _, _, _ => .ub
  | fuel + 1, i, p, k, blk =>
    let avail := blk.length - p
    let xs := (all.drop k).take avail
    let blk' := putAt blk p xs
    if good = true ∧ k + xs.length = all.length ∧ (xs.length < avail ∨ late i = false) then .ok (blk', k + xs.length)
    else if 2 ^ 30 ≤ blk.length then .ub
    else growLoop all good late fuel (i + 1) blk.length (k + xs.length) (blk' ++ List.replicate blk.length none)

/-- The loop with a first buffer of `n` bytes.  A buffer of at least one byte can be doubled 31 times at most; one of none is
doubled for ever. -/
def growFrom (all : List Byte) (good : Bool) (late : Nat → Bool) (n : Nat) : Res (List (Option Byte) × Nat) :=
  growLoop all good late 64 0 0 0 (List.replicate n none)

/-- What `inflate` makes of a sequence of bytes: what it delivers, and whether the stream ends then. -/
structure Unz where
  bytes : List Byte → List Byte
  ends : List Byte → Bool

/-- `H5VL_log_zip_compress_alloc` (L61-112): the block and `*out_len`. -/
def compressAlloc (z : Zlib) (late : Nat → Bool) (x : List Byte) : Res (List (Option Byte) × Nat) :=
  growFrom (z.comp x) true late (max 6 (x.length / 8))

/-- `H5VL_log_zip_decompress_alloc` (L155-204); `in_len << 1` is computed as `int`. -/
def decompressAlloc (u : Unz) (late : Nat → Bool) (y : List Byte) : Res (List (Option Byte) × Nat) :=
  if 2 ^ 30 ≤ y.length then .ub else growFrom (u.bytes y) (u.ends y) late (2 * y.length)

/-- `H5VL_logi_filter_inflate_alloc` (L134-191) with a buffer of `n` bytes, or none. -/
def inflateAlloc (u : Unz) (late : Nat → Bool) (y : List Byte) (n : Nat) : Res (List (Option Byte) × Nat) :=
  if n = 0 then decompressAlloc u late y else growFrom (u.bytes y) (u.ends y) late n

/-- `H5VL_logi_filter_inflate` (L101-128) into `cap` bytes: an error unless the stream ends; input behind its end is refused. -/
def inflateInto (u : Unz) (rest : List Byte → Bool) (y : List Byte) (cap : Nat) : Res (List Byte) :=
  if u.ends y = false ∨ cap < (u.bytes y).length ∨ rest y = true then .err else .ok (u.bytes y)

/-- `H5VL_logi_filter_deflate` (L19-48) into `cap` bytes: that the stream has not ended is not an error (L37-39), input that was
not taken is (L44). -/
def deflateInto (z : ZlibS) (x : List Byte) (cap : Nat) : Res (List Byte) :=
  if (z.comp x).length ≤ cap then .ok (z.comp x)
  else match z.short x cap with
    | .error => .err
    | .unread => .err
    | .filled => .ok ((z.comp x).take cap)

end Verif
