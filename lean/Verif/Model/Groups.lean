import Verif.Model.Bytes

/-
Subfiling: groups of ranks (src/H5VL_log_filei.cpp L943-1017), collective calls of a metadata flush
(src/H5VL_log_filei_meta.cpp L49-320) and reading of subfiled data (src/H5VL_logi_nb.cpp L522-590).

MPI is modelled by its contract: `MPI_Comm_split` puts the ranks of one colour into one communicator, in the order of the key
(here the rank); `MPI_Comm_split_type` likewise with the colour chosen by the system (the node) and key 0, which keeps the
order of the ranks.
-/

namespace Verif

/-! ### Groups -/

/-- `fp->rank * fp->ngroup / fp->np` (L963), in `int`: overflow is undefined. -/
def splitColor (np ngroup r : Nat) : Res Nat := if r * ngroup < 2 ^ 31 then .ok (r * ngroup / np) else .ub

/-- Rank in the group (L971): ranks of the same colour below. -/
def groupRank (color : Nat → Nat) (r : Nat) : Nat := ((List.range r).filter (fun i => color i == color r)).length

/-- Number of ranks below `n` that are first in their group (L981-983, L986-988: the loops over `group_ranks`). -/
def leaders (color : Nat → Nat) (n : Nat) : Nat := ((List.range n).filter (fun i => groupRank color i == 0)).length

/-- The rank that is first in the group of `r` (group rank 0). -/
def groupRoot (color : Nat → Nat) (r : Nat) : Nat := ((List.range (r + 1)).find? (fun i => color i == color r)).getD r

/-- `fp->group_id` after the broadcast from the first rank of the group (L980-990). -/
def groupId (color : Nat → Nat) (r : Nat) : Nat := leaders color (groupRoot color r)

/-- `fp->ngroup` (L985-988) as computed by rank `r`: its own count goes on to `np`. -/
def groupCount (color : Nat → Nat) (np r : Nat) : Nat :=
  leaders color r + (((List.range np).drop r).filter (fun i => groupRank color i == 0)).length

/-! ### Collective calls of a metadata flush -/

/-- Communicators: all ranks, or a group. -/
inductive Comm where
  | world
  | group (g : Nat)
deriving DecidableEq, Repr

/-- Kinds of collective calls. -/
inductive Coll where
  | gather
  | scatter
  | create
  | write
  | close
  | barrier
deriving DecidableEq, Repr

/-- Metadata of a group: the sum over its ranks below `np`. -/
def groupMeta (color : Nat → Nat) (np : Nat) (size : Nat → Nat) (g : Nat) : Nat :=
  (((List.range np).filter (fun i => color i == g)).map size).sum

/-- Collective calls of `H5VL_log_filei_metaflush` by rank `r`, in order.  The dataset is created only if the group has more
than the section map (L168-171): `8 * (group_np + 1)` bytes.  The barrier is on the communicator of the file. -/
def flushCalls (color : Nat → Nat) (np : Nat) (size : Nat → Nat) (r : Nat) : List (Coll × Comm) :=
  let g := color r
  [(.gather, .group g), (.scatter, .group g)] ++
    (if 0 < groupMeta color np size g then
      [(.create, .group g), (.write, .group g), (.close, .group g), (.barrier, .world)] else [])

/-! ### Reading subfiled data -/

/-- Subfiles opened by the loop of `H5VL_log_nb_flush_read_reqs` (L551-580). -/
def readOpens (ngroup gid : Nat) : List Nat := (List.range ngroup).map (fun i => (gid + (i + 1)) % ngroup)

/-- Subfiles on which `H5VL_log_nb_perform_read` is called (L546-549); not at all in the loop. -/
def readPerforms (subfiling single : Bool) (gid : Nat) : List Nat := if !subfiling || single then [gid] else []

/-- The attribute written when the file is closed or created (src/H5VL_log_filei.cpp L747-752, L280-287). -/
def fileAttr (ndset nldset nmdset config ngroup : Int) : List Int := [ndset, nldset, nmdset, config, ngroup]

/-- `fp->ngroup` when the file is opened (L131-134): `attbuf[3]`. -/
def openNgroup (att : List Int) : Int := att.getD 3 0

end Verif
