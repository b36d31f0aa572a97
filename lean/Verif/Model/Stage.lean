import Verif.Model.Filter
import Verif.Model.Rank
import Verif.Model.File
import Verif.Spec.Log

/-
How a write obtains the data it queues (src/H5VL_log_dataseti.cpp L924-1000) and what a write that fails leaves behind
(L841-1000).
-/

namespace Verif

/-- What the choice of the buffer depends on: `H5Pget_buffered`, `H5Tequal (dip->dtype, mem_type_id) > 0`, whether the
memory selection is `H5S_SEL_ALL`, and the filters of the dataset. -/
structure StageArgs where
  buffered : Bool
  sameType : Bool
  memAll : Bool
  filters : List FilterId
deriving DecidableEq, Repr

/-- The data block of a queued request (`xbuf`): memory of the user or memory of the connector. -/
inductive DBuf where
  | user (addr size : Nat)
  | own (bytes : List Byte)
deriving DecidableEq, Repr

/-- Bytes taken from the user buffer (L951-965): all of it, or the bytes of the memory selection (`sel`, offsets in the
order of the selection). -/
def packed (a : StageArgs) (mem : Mem) (ubuf n mes : Nat) (sel : List Nat) : List Byte :=
  if a.memAll then fileBytes mem ubuf (n * mes) else sel.map (fun o => mem (ubuf + o))

/-- Data of a request (L924-1000): `n` elements, `mes` and `des` element sizes in memory and in the dataset, `conv` the
conversion of the whole block (`H5Tconvert`). -/
def stage (z : Zlib) (conv : List Byte → List Byte) (a : StageArgs) (mem : Mem) (ubuf n mes des : Nat) (sel : List Nat) :
    Res DBuf :=
  let x : DBuf :=
    if a.buffered && a.sameType && a.memAll then .user ubuf (n * des)
    else .own (if a.sameType then packed a mem ubuf n mes sel else conv (packed a mem ubuf n mes sel))
  if a.filters = [] then .ok x
  else do
    let y ← filter z a.filters (match x with
      | .user p s => fileBytes mem p s
      | .own bs => bs)
    return .own y

/-- The bytes written to the file at the flush, `mem` being the memory at that time (src/H5VL_logi_nb.cpp L640-720). -/
def DBuf.flushed (mem : Mem) : DBuf → List Byte
  | .user p s => fileBytes mem p s
  | .own bs => bs

/-! ### Writes that fail -/

open Spec (AW) in
/-- `H5VL_log_dataseti_write` failing after the deduplication (L886-1000: compression, buffer allocation, conversion,
filters): the request is not queued, and the table keeps what the deduplication put there. -/
def failRank (cfg : Cfg) (w : AW) (st : Rank) : Res Rank :=
  if w.bs = [] then .ok st else do
    let x ← dedup cfg (mkWReq cfg w.d w.did w.bs st.mdsize w.data) st
    return { st with hash := x.2 }

open Spec (AW) in
/-- Calls of one process between two metadata flushes; `false` marks a call that fails. -/
def runCalls (cfg : Cfg) : List (AW × Bool) → Rank → Res Rank
  | [], st => .ok st
  | c :: cs, st => do
    let st' ← if c.2 then writeRank cfg c.1.d c.1.did c.1.bs c.1.data st else failRank cfg c.1 st
    runCalls cfg cs st'

end Verif
