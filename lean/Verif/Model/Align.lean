import Verif.Model.Groups
import Verif.Model.Options

/-
The aligned data layout: creation (src/H5VL_log_filei.cpp L216-276, L845-867), neighbours on a storage target (L989-1016), and
the flush of data (src/H5VL_logi_nb.cpp L896-1113).

File positions, sizes and addresses are `Nat` (no wrap-around).  POSIX `write` and `lseek` are modelled by their contract: `write`
stores all bytes at the current position (the loop of L896-905 repeats short writes) and moves it.
-/

namespace Verif

/-! ### Creation -/

/-- The member `fp->fh`: never initialised before `MPI_File_open`. -/
inductive Fh where
  | uninit
  | opened
deriving DecidableEq, Repr

/-- `H5VL_log_filei_parse_strip_info` (filei.cpp L845-867): `MPI_File_get_info (fp->fh, ..)`. -/
def stripInfo : Fh → Res Unit
  | .uninit => .ub
  | .opened => .ok ()

/-- The uses of the handle in `H5VL_log_filei_post_create`, in order: L216-217, then L275-276. -/
def postCreateFh (f : FileOpts) : Res Fh :=
  (if f.align then stripInfo .uninit else .ok ()).bind fun _ => .ok .opened

/-! ### Neighbours -/

/-- The loops of L997-1004 and L1007-1015: the `j`-th rank in the list that is first in its group. -/
def scanLeader (lead : Nat → Bool) : Nat → List Nat → Option Nat
  | _, [] => none
  | j, i :: is => if lead i then (if j - 1 = 0 then some i else scanLeader lead (j - 1) is) else scanLeader lead j is

/-- `fp->prev_rank` (`none`: -1). -/
def prevRank (color : Nat → Nat) (scount r : Nat) : Option Nat :=
  scanLeader (fun i => groupRank color i == 0) scount (List.range r).reverse

/-- `fp->next_rank`. -/
def nextRank (color : Nat → Nat) (np scount r : Nat) : Option Nat :=
  scanLeader (fun i => groupRank color i == 0) scount ((List.range np).drop (r + 1))

/-- `fp->target_ost` (L991). -/
def targetOst (color : Nat → Nat) (scount r : Nat) : Nat := groupId color r % scount

/-! ### Offsets in the stream of a storage target -/

/-- What the first rank of a group receives from the group before (nb.cpp L1061-1068): the value sent there is the result of
`MPI_Reduce` over the sizes of that group (L1082-1090); `fbase` is not part of it (L1076). -/
def nodeBase (color : Nat → Nat) (np scount : Nat) (size : Nat → Nat) (leader : Nat) : Nat :=
  match prevRank color scount leader with
  | some p => groupMeta color np size (color p)
  | none => 0

/-- `foff` (L1071-1076): `MPI_Exscan` in the group, with `fbase` added to the size of the first rank. -/
def streamOff (color : Nat → Nat) (np scount : Nat) (size : Nat → Nat) (r : Nat) : Nat :=
  nodeBase color np scount size (groupRoot color r) +
    (((List.range r).filter (fun i => color i == color r)).map size).sum

/-- Offsets recorded in the metadata (`hdr->foff`): sizes of the requests before (L1013-1014), plus `foff` (L1094). -/
def recorded (foff : Nat) : List Nat → List Nat
  | [] => []
  | n :: ns => foff :: recorded (foff + n) ns

/-- The arrays `mlens` and `moffs` (L1003-1012): as many elements as requests, one assignment per buffer. -/
def gatherBufs (reqs : List (List (List Byte))) : Res (List (List Byte)) :=
  if reqs.flatten.length ≤ reqs.length then .ok reqs.flatten else .ub

/-! ### Place of the log dataset -/

/-- Size of the dataset (L1036-1040); `dsize` is the largest stream. -/
def alignSize (ssize scount dsize : Nat) : Nat :=
  (if dsize % ssize = 0 then dsize else dsize + (ssize - dsize % ssize)) * scount + ssize

/-- Start of the data (L1054-1057); `addr` is the address of the dataset. -/
def alignAddr (ssize dsize addr : Nat) : Nat := if dsize % ssize = 0 then addr else addr + (ssize - dsize % ssize)

/-! ### Writing, `H5VL_log_nb_ost_write` (L907-973) -/

/-- Variables of the loop: `skip_size`, the bytes of the stripe buffer from `skip_size` to `bp`, the position of the file, and the
bytes written with their positions. -/
structure OstSt where
  skip : Nat
  cur : List Byte
  pos : Nat
  out : List (Nat × Byte)
deriving DecidableEq, Repr

/-- Bytes written at consecutive positions. -/
def ostPut (pos : Nat) : List Byte → List (Nat × Byte)
  | [] => []
  | b :: bs => (pos, b) :: ostPut (pos + 1) bs

/-- `while (mlen > 0)` (L941-967). The first argument bounds the number of rounds. -/
def ostLoop (ssize stride : Nat) : Nat → OstSt → List Byte → OstSt
  | 0, st, _ => st
  | _ + 1, st, [] => st
  | f + 1, st, b :: bs =>
    let free := ssize - (st.skip + st.cur.length)
    if free ≤ (b :: bs).length then
      let full := st.cur ++ (b :: bs).take free
      ostLoop ssize stride f
        ⟨0, [], st.pos + full.length + stride, st.out ++ ostPut st.pos full⟩ ((b :: bs).drop free)
    else { st with cur := st.cur ++ b :: bs }

/-- The whole function; `off / fp->ssize` is undefined for 0. The rounds of a buffer are at most its bytes, because a stripe buffer
is never full at the beginning of a round. -/
def ostWrite (ssize scount target doff off : Nat) (bufs : List (List Byte)) : Res (List (Nat × Byte)) :=
  if ssize = 0 then .ub else
  let stride := ssize * scount
  let st := bufs.foldl (fun st b => ostLoop ssize stride b.length st b)
    ⟨off % ssize, [], doff + ssize * target + (off / ssize) * stride + off % ssize, []⟩
  .ok (st.out ++ ostPut st.pos st.cur)

end Verif
