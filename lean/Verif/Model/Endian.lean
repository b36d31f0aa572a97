import Verif.Model.Meta

/-
Byte order (`WORDS_BIGENDIAN`): the swap functions (src/H5VL_logi_util.hpp L87-108) and their uses.
-/

namespace Verif

/-- `H5VL_logi_sreverse`, L87-89. -/
def srev (v : BitVec 16) : BitVec 16 := ((v >>> 8) &&& 0x00FF#16) ||| ((v <<< 8) &&& 0xFF00#16)

/-- `H5VL_logi_lreverse`, L90-93. -/
def lrev (v : BitVec 32) : BitVec 32 :=
  ((v >>> 24) &&& 0x000000FF#32) ||| ((v >>> 8) &&& 0x0000FF00#32) ||| ((v <<< 8) &&& 0x00FF0000#32) |||
    ((v <<< 24) &&& 0xFF000000#32)

/-- `H5VL_logi_llreverse`, L94-99. -/
def llrev (v : BitVec 64) : BitVec 64 :=
  ((v >>> 56) &&& 0x00000000000000FF#64) ||| ((v >>> 40) &&& 0x000000000000FF00#64) |||
    ((v >>> 24) &&& 0x0000000000FF0000#64) ||| ((v >>> 8) &&& 0x00000000FF000000#64) |||
    ((v <<< 8) &&& 0x000000FF00000000#64) ||| ((v <<< 24) &&& 0x0000FF0000000000#64) |||
    ((v <<< 40) &&& 0x00FF000000000000#64) ||| ((v <<< 56) &&& 0xFF00000000000000#64)

/-- Store and load of an unsigned integer of `k` bytes on a host; `big`: most significant byte first. -/
def hostStore (big : Bool) (k n : Nat) : List Byte := if big then (leN k n).reverse else leN k n
def hostLoad (big : Bool) (bs : List Byte) : Nat := if big then unle bs.reverse else unle bs

/-- `H5VL_logi_lreverse (start, end)` (L103-105) on `n` words in memory. -/
def swap32 (big : Bool) : Nat → List Byte → List Byte
  | 0, bs => bs
  | n + 1, bs =>
    hostStore big 4 (lrev (BitVec.ofNat 32 (hostLoad big (bs.take 4)))).toNat ++ swap32 big n (bs.drop 4)

/-- `H5VL_logi_llreverse (start, end)` (L106-108) on `n` words in memory. -/
def swap64 (big : Bool) : Nat → List Byte → List Byte
  | 0, bs => bs
  | n + 1, bs =>
    hostStore big 8 (llrev (BitVec.ofNat 64 (hostLoad big (bs.take 8)))).toNat ++ swap64 big n (bs.drop 8)

/-- Unsigned images of the fields of a header. -/
structure HdrWords where
  metaSize : Nat
  did : Nat
  flag : Nat
  foff : Nat
  fsize : Nat
deriving DecidableEq, Repr

/-- Header in memory. -/
def HdrWords.image (big : Bool) (h : HdrWords) : List Byte :=
  hostStore big 4 h.metaSize ++ hostStore big 4 h.did ++ hostStore big 4 h.flag ++ hostStore big 8 h.foff ++
    hostStore big 8 h.fsize

/-- Header in the file: swapped on big-endian hosts as seven 32-bit words (src/H5VL_log_filei_meta.cpp L158-164). -/
def HdrWords.toFile (big : Bool) (h : HdrWords) : List Byte :=
  if big then swap32 big 7 (h.image big) else h.image big

/-- Selection words in the file (src/H5VL_logi_nb.cpp L134-153). -/
def wordsToFile (big : Bool) (ws : List Nat) : List Byte :=
  let img := ws.flatMap (hostStore big 8)
  if big then swap64 big ws.length img else img

/-- Number of selections in the file (src/H5VL_logi_nb.cpp L120-127). -/
def nselToFile (big : Bool) (n : Nat) : List Byte :=
  hostStore big 4 (if big then (lrev (BitVec.ofNat 32 n)).toNat else n)

/-- The header as the reader gets it (src/H5VL_logi_idx_list.cpp L51-56): swapped as seven 32-bit words. -/
def HdrWords.ofFile (big : Bool) (bs : List Byte) : HdrWords :=
  let b := if big then swap32 big 7 bs else bs
  { metaSize := hostLoad big (b.take 4)
    did := hostLoad big ((b.drop 4).take 4)
    flag := hostLoad big ((b.drop 8).take 4)
    foff := hostLoad big ((b.drop 12).take 8)
    fsize := hostLoad big ((b.drop 20).take 8) }

/-- The dataset number with which `parse_block` consults `dsets_info`, before swapping
(src/H5VL_logi_idx_list.cpp L47-52, src/H5VL_logi_idx_compact.cpp L111-116). -/
def didTested (big : Bool) (bs : List Byte) : Nat := hostLoad big ((bs.drop 4).take 4)

/-- The selection words as the reader gets them: the swap covers `8 * bsize` bytes instead of `bsize` because `bp` is a
pointer to 8-byte words (src/H5VL_logi_meta.cpp L193-196). `bs` is the rest of the metadata block; `none` if the swap leaves
it. -/
def selsOfFile (big : Bool) (bsize : Nat) (bs : List Byte) : Res (List Byte) :=
  if big then if 8 * bsize ≤ bs.length then .ok (swap64 big bsize bs) else .ub else .ok bs

end Verif
