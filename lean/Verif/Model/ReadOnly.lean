import Verif.Model.File

/-
Files opened for reading only: src/H5VL_log_file.cpp L201-319, src/H5VL_log_filei.cpp L109-199, L669-687, L710-842.

The flags given to H5Fopen are passed to the under VOL, which refuses to create or change anything, and kept in `fp->flag`,
which is looked at in one place only (filei.cpp L739).  `H5Dwrite` does not look at it (dataset.cpp L310-379, dataseti.cpp
L642-1032), nor does the library: the native connector checks the intent of the file when it writes a dataset, and here it is not
asked to.

Creating datasets and changing extents is refused by the under VOL and not modelled here.
-/

namespace Verif

/-- The flags of H5Fopen: `H5F_ACC_RDONLY` is 0, `H5F_ACC_RDWR` 1, `H5F_ACC_SWMR_READ` 64; the library allows the last one only
without `H5F_ACC_RDWR`. -/
structure OFlags where
  rdwr : Bool
  swmr : Bool
deriving DecidableEq, Repr

/-- `fp->flag`. -/
def OFlags.word (f : OFlags) : Nat := (if f.rdwr then 1 else 0) + (if f.swmr then 64 else 0)

/-- The under VOL opens the file: a file without write permission can be read only. -/
def underOpen (perm : Bool) (f : OFlags) : Res Unit := if !f.rdwr || perm then .ok () else .err

/-- `H5VL_log_file_open` and `H5VL_log_filei_post_open`: the file is opened by the under VOL with the flags (file.cpp L298) and by
MPI for reading and writing (filei.cpp L183), which the system refuses without permission. -/
def logOpen (perm : Bool) (f : OFlags) : Res Unit :=
  (underOpen perm f).bind fun _ => if perm then .ok () else .err

/-- `H5VL_log_nb_flush_write_reqs` (src/H5VL_logi_nb.cpp L592-894) of a file that the under VOL does not let change: offsets are
set (L663-673), then, if there is data, the creation of the log dataset fails (L731-735). The second component: success. -/
def FState.roFlush (st : FState) : FState × Bool :=
  ({ st with ranks := st.ranks.map Rank.setLocal }, (st.ranks.map Rank.localSize).sum == 0)

/-- `H5VL_log_filei_flush` (filei.cpp L669-687). -/
def FState.roFileFlush (st : FState) : FState × Bool := if st.anyPending then st.roFlush else (st, true)

/-- What happens before a blocking read looks at the log (see `FState.prepare`); dirty metadata cannot be written. -/
def FState.roPrepare (coll : Bool) (st : FState) : FState × Bool :=
  let p := if (coll || decide (st.ranks.length = 1)) && st.anyPending then st.roFlush else (st, true)
  if p.2 then (p.1, !p.1.metadirty) else p

/-- `H5VL_log_filei_close` (filei.cpp L735-842): `if (fp->flag != H5F_ACC_RDONLY)` data, metadata and the attribute of the file are
written; writing the attribute fails.  Success means that the file is closed; what is queued is dropped. -/
def FState.roClose (f : OFlags) (_st : FState) : Bool := f.word == 0

/-- One operation of a session that has opened the file for reading only; operations that fail leave the state given.
Reads keep the index they have loaded. -/
inductive RoStep : FState → FState → Prop
  | write {st st' : FState} (r did : Nat) (bs : List Blk) (data : List Byte) :
      st.write r did bs data = .ok st' → RoStep st st'
  | flush (st : FState) : RoStep st st.roFileFlush.1
  | prepare (coll : Bool) (st : FState) : RoStep st (st.roPrepare coll).1
  | search {st st' : FState} {raw : List Hit} (fuel r : Nat) (qs : List RReq) : st.search fuel r qs = .ok (raw, st') → RoStep st st'

/-- A session that has opened the file for reading only, from state `st0`. -/
inductive RoSession (st0 : FState) : FState → Prop
  | start : RoSession st0 st0
  | step {st st' : FState} : RoSession st0 st → RoStep st st' → RoSession st0 st'

end Verif
