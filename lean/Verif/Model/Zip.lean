import Verif.Model.Rank
import Verif.Model.Filter

/-
Compression of the metadata of a write, for the build with `ENABLE_ZLIB` and the option on:
src/H5VL_logi_nb.cpp L78-82, src/H5VL_log_dataseti.cpp L888-922, src/H5VL_logi_zip.cpp L21-55.
-/

namespace Verif

/-- What `deflate`/`deflateEnd` do when the output buffer is too small: report an error, leave input unread, or take all
input and fill the buffer. -/
inductive ZShort where
  | error
  | unread
  | filled
deriving DecidableEq, Repr

/-- zlib with its behaviour on small output buffers. -/
structure ZlibS extends Zlib where
  short : List Byte → Nat → ZShort

/-- `H5VL_log_zip_compress` (L21-55) with `*out_len = cap`: the value returned, the new `*out_len`, and the bytes written to
`out`. -/
def zipCompress (z : ZlibS) (x : List Byte) (cap : Nat) : Res (Bool × Nat × List Byte) :=
  if (z.comp x).length ≤ cap then .ok (true, (z.comp x).length, z.comp x)
  else match z.short x cap with
    | .error => .err
    | .unread => .ok (false, cap, (z.comp x).take cap)
    | .filled => .ok (true, cap, (z.comp x).take cap)

/-- Compression step, src/H5VL_log_dataseti.cpp L892-915, and the resize after it (L920-922): new size of the work buffer
and the request.  `err` is the returned `bool` converted to `int`. -/
def zipStep (z : ZlibS) (zb : Nat) (r : WReq) : Res (Nat × WReq) :=
  if r.flags.defl then do
    let inlen := r.selBuf.length
    let zb := max zb inlen
    let c ← zipCompress z r.selBuf zb
    let err : Int := if c.1 then 1 else 0
    if err = 0 ∧ c.2.1 < inlen then .ok (zb, { r with selBuf := c.2.2.take c.2.1 })
    else .ok (zb, { r with flags := { r.flags with defl := false } })
  else .ok (zb, r)

/-- The request built by the constructor when compression is on: the flag is set for several blocks. -/
def mkWReqZ (cfg : Cfg) (d : DInfo) (did : Nat) (bs : List Blk) (mdsize : Nat) (data : List Byte) : WReq :=
  let r := mkWReq cfg d did bs mdsize data
  { r with flags := { r.flags with defl := decide (1 < bs.length) } }

/-- A process with its compression buffer (`zbsize`). -/
structure RankZ where
  rank : Rank
  zb : Nat
deriving DecidableEq, Repr

def RankZ.init : RankZ := ⟨Rank.init, 0⟩

/-- `H5VL_log_dataseti_write` with metadata compression on.  The table keeps a copy of the request as it is before
compression (`wreq_hash[*r] = r`). -/
def writeRankZ (z : ZlibS) (cfg : Cfg) (d : DInfo) (did : Nat) (bs : List Blk) (data : List Byte) (st : RankZ) :
    Res RankZ :=
  if bs = [] then .ok st else do
    let x ← dedup cfg (mkWReqZ cfg d did bs st.rank.mdsize data) st.rank
    let y ← zipStep z st.zb x.1
    return { rank := { st.rank with wreqs := st.rank.wreqs ++ [y.2], mdsize := st.rank.mdsize + y.2.metaSize, hash := x.2 },
             zb := y.1 }

/-- A write call. -/
structure WCall where
  d : DInfo
  did : Nat
  bs : List Blk
  data : List Byte
deriving DecidableEq, Repr

/-- Successive writes without compression. -/
def writesRank (cfg : Cfg) : List WCall → Rank → Res Rank
  | [], st => .ok st
  | c :: cs, st => do
    let st' ← writeRank cfg c.d c.did c.bs c.data st
    writesRank cfg cs st'

/-- Successive writes with compression. -/
def writesRankZ (z : ZlibS) (cfg : Cfg) : List WCall → RankZ → Res RankZ
  | [], st => .ok st
  | c :: cs, st => do
    let st' ← writeRankZ z cfg c.d c.did c.bs c.data st
    writesRankZ z cfg cs st'

end Verif
