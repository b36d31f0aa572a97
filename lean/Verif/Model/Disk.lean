import Verif.Model.Bytes
import Verif.Model.Subfile

/-
H5Fcreate, H5Fdelete and H5Fis_accessible and the files they leave on disk: `H5VL_log_file_specific` (src/H5VL_log_file.cpp L391-443),
`H5VL_log_file_create` with `H5VL_log_filei_post_create` and `H5VL_log_filei_create_subfile` (src/H5VL_log_filei.cpp L244-252, L867-903).
The file is closed between the calls.
-/

namespace Verif

/-- A file on disk: an HDF5 file or another one. -/
inductive DFile where
  | hdf
  | other
deriving DecidableEq, Repr

abbrev Disk := Name → Option DFile

def Disk.put (d : Disk) (n : Name) (f : Option DFile) : Disk := fun m => if m = n then f else d m

/-- `H5VLfile_create` of the connector below, for one file: with `H5F_ACC_EXCL` the file must not exist, with `H5F_ACC_TRUNC` it is replaced. -/
def Disk.make (d : Disk) (n : Name) (excl : Bool) : Bool × Disk :=
  if excl && (d n).isSome then (false, d) else (true, d.put n (some .hdf))

/-- `H5VL_log_filei_create_subfile` by all groups (filei.cpp L887-892): the flags are those of the file; what H5Fcreate says in the processes
of each group. -/
def makeSubs (n : Name) (excl : Bool) : List Nat → Disk → List Bool × Disk
  | [], d => ([], d)
  | g :: gs, d =>
    let r := d.make (createPath n g) excl
    let t := makeSubs n excl gs r.2
    (r.1 :: t.1, t.2)

/-- Calls, by all processes together; `groups`: number of groups of processes if the file has subfiles. -/
inductive FsOp where
  | create (n : Name) (excl : Bool) (groups : Option Nat)
  | delete (n : Name)
  | accessible (n : Name)

/-- What a call says: H5Fcreate in each group, H5Fdelete, H5Fis_accessible (`none`: it fails). -/
inductive FsAns where
  | made (bs : List Bool)
  | deleted (b : Bool)
  | says (b : Option Bool)
deriving DecidableEq, Repr

/-- The calls with the native connector below.  H5Fcreate: the main file (`H5VL_log_file_create`), then the subfiles
(`H5VL_log_filei_post_create`, filei.cpp L244-252).  H5Fdelete and H5Fis_accessible (file.cpp L413-443) are passed on as they are. -/
def fsStep (d : Disk) : FsOp → FsAns × Disk
  | .create n excl groups =>
    let r := d.make n excl
    if r.1 then
      match groups with
      | none => (.made [true], r.2)
      | some k =>
        let t := makeSubs n excl (List.range k) r.2
        (.made t.1, t.2)
    else (.made (List.replicate (groups.getD 1) false), r.2)
  | .delete n => if d n = some .hdf then (.deleted true, d.put n none) else (.deleted false, d)
  | .accessible n => (.says ((d n).map (fun f => decide (f = .hdf))), d)

def fsRun : Disk → List FsOp → List FsAns × Disk
  | d, [] => ([], d)
  | d, op :: ops =>
    let r := fsStep d op
    let t := fsRun r.2 ops
    (r.1 :: t.1, t.2)

/-! ### Connectors -/

/-- Connectors: the native one, this one, others that pass calls on. -/
inductive FConn where
  | native
  | log
  | pass (c : Nat)
deriving DecidableEq, Repr

/-- Connector information: none, or the connector below with its own. -/
inductive FInfo where
  | null
  | under (c : FConn) (i : FInfo)
deriving DecidableEq, Repr

/-- The connector of a file access property list. -/
structure FVol where
  conn : FConn
  info : FInfo
deriving DecidableEq, Repr

/-- H5Fdelete and H5Fis_accessible in connector `c` with the property list `p`; `x` is what the native connector says.  `none`: not
finished after `fuel` calls.  This connector (file.cpp L420-441) passes on the arguments with the property list of its caller
(`under_fapl_id` is not used); the others put the list for the connector below into the arguments.  Using the information of another
connector is undefined (this cannot happen to this connector: it gets its own list or passes it to itself). -/
def fsPass {α : Type} (x : α) : Nat → FConn → FVol → Option (Res α)
  | 0, _, _ => none
  | _ + 1, .native, _ => some (.ok x)
  | f + 1, .log, p =>
    match p.info with
    | .null => fsPass x f .native p
    | .under c _ => fsPass x f c p
  | f + 1, .pass c, p =>
    if p.conn = .pass c then
      match p.info with
      | .null => some .err
      | .under c' i => fsPass x f c' ⟨c', i⟩
    else some .ub

/-- What calls leave behind: references to connectors, connector information, property lists. -/
structure FsLeft where
  refs : Nat
  infos : Nat
  lists : Nat
deriving DecidableEq, Repr

/-- `H5VL_log_file_specific` (file.cpp L424-442).  `H5Pget_vol_info` returns a copy, with a reference to the connector below and a copy of its
information (src/H5VL_log_info.cpp L40-56); only the structure is freed.  `CHECK_ERR` leaves before `H5Pclose`. -/
def fsLeave (i : FInfo) (ok : Bool) (l : FsLeft) : FsLeft :=
  let l := match i with
    | .null => l
    | .under _ .null => { l with refs := l.refs + 1 }
    | .under _ _ => { l with refs := l.refs + 1, infos := l.infos + 1 }
  if ok then l else { l with lists := l.lists + 1 }

end Verif
