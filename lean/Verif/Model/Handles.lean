import Verif.Model.Bytes

/-
The registry of open files (src/H5VL_log_filei.cpp L48-82) and the reference count of a file (L1079-1084).
-/

namespace Verif

/-! ### Registry -/

/-- What identifies a file to the operating system (`st_dev`, `st_ino`). -/
structure FileId where
  dev : Nat
  ino : Nat
deriving DecidableEq, Repr

/-- An open `H5VL_log_file_t`: its address, `ino` (`none`: `has_ino` is false), and the file it was opened on (not stored in
the code). -/
structure FileObj where
  addr : Nat
  ino : Option Nat
  file : FileId
deriving DecidableEq, Repr

/-- The map `files` (inode to address) and the open files. -/
structure Registry where
  files : List (Nat × Nat)
  objs : List FileObj
deriving DecidableEq, Repr

/-- `std::map::find`. -/
def regFind (r : Registry) (ino : Nat) : Option Nat := (r.files.find? (fun e => e.1 == ino)).map Prod.snd

/-- `H5VL_log_filei_search` (L49-62): `st` is the result of `stat`, `none` when it fails. -/
def regSearch (r : Registry) (st : Option FileId) : Option Nat := st.bind (fun s => regFind r s.ino)

/-- `H5VL_log_filei_register` (L63-79); `files[s.st_ino] = fp` replaces an existing entry. -/
def regRegister (r : Registry) (st : Option FileId) (addr : Nat) (file : FileId) : Registry :=
  st.elim { r with objs := ⟨addr, none, file⟩ :: r.objs } (fun s =>
    { files := (s.ino, addr) :: r.files.filter (fun e => e.1 != s.ino), objs := ⟨addr, some s.ino, file⟩ :: r.objs })

/-- `H5VL_log_filei_rm` (L80-82), called when the file is closed. -/
def regRemove (r : Registry) (o : FileObj) : Registry :=
  { files := o.ino.elim r.files (fun i => r.files.filter (fun e => e.1 != i)), objs := r.objs.erase o }

/-- Opening (src/H5VL_log_file.cpp L219-224, L299-302) or creating (L72-77; src/H5VL_log_filei.cpp L288) a file: `before`
and `after` are the results of `stat` in the search and in the registration, `addr` the address of the new object, `file`
the file that the path designates.  `none` if the call is refused. -/
def regOpen (r : Registry) (before after : Option FileId) (addr : Nat) (file : FileId) : Option Registry :=
  (regSearch r before).elim (some (regRegister r after addr file)) (fun _ => none)

/-! ### Reference count -/

/-- A file object: `refcnt`, whether the object exists, how often the file has been closed (`H5VL_log_filei_close`), and the
handles the user holds (file handles, objects). -/
structure Handles where
  refcnt : Int
  alive : Bool
  closes : Nat
  fileHandles : Nat
  objHandles : Nat
deriving DecidableEq, Repr

/-- The constructor (L1086-1087): the handle returned by the call to open or create the file. -/
def Handles.init : Handles := ⟨1, true, 0, 1, 0⟩

/-- `H5VL_log_filei_inc_ref` (L1079): undefined when the object has been deleted. -/
def incRef (h : Handles) : Res Handles := if h.alive then .ok { h with refcnt := h.refcnt + 1 } else .ub

/-- `H5VL_log_filei_dec_ref` (L1081-1084) and the end of `H5VL_log_filei_close` (`delete fp`). -/
def decRef (h : Handles) : Res Handles :=
  if h.alive then
    if h.refcnt - 1 = 0 then .ok { h with refcnt := 0, alive := false, closes := h.closes + 1 }
    else .ok { h with refcnt := h.refcnt - 1 }
  else .ub

/-- What the user may do. -/
inductive HandleOp where
  /-- open, create or wrap a group, dataset, attribute, ... (`H5VL_log_obj_t` constructor, src/H5VL_log_obji.cpp L66-74) -/
  | openObj
  /-- close it (destructor, L81-97) -/
  | closeObj
  /-- `H5VL_FILE_REOPEN` (src/H5VL_log_file.cpp L409-412) -/
  | reopen
  /-- `H5VL_log_file_close` (L525-540) -/
  | closeFile
  /-- get a file handle from an object (`H5VL_log_wrap_object` with `H5I_FILE`, src/H5VL_log_wrap.cpp L122-124, and
  `H5VL_log_filei_wrap`, src/H5VL_log_filei.cpp L1029-1077, where the increment is commented out) -/
  | wrapFile
deriving DecidableEq, Repr

/-- The user holds what the operation needs. -/
def HandleOp.allowed (h : Handles) : HandleOp → Prop
  | .openObj => 0 < h.fileHandles + h.objHandles
  | .closeObj => 0 < h.objHandles
  | .reopen => 0 < h.fileHandles
  | .closeFile => 0 < h.fileHandles
  | .wrapFile => 0 < h.fileHandles + h.objHandles

instance (h : Handles) (o : HandleOp) : Decidable (o.allowed h) := by
  cases o <;> (unfold HandleOp.allowed; exact inferInstance)

/-- One operation. -/
def handleStep (h : Handles) : HandleOp → Res Handles
  | .openObj => (incRef h).bind (fun h => .ok { h with objHandles := h.objHandles + 1 })
  | .closeObj => (decRef h).bind (fun h => .ok { h with objHandles := h.objHandles - 1 })
  | .reopen => (incRef h).bind (fun h => .ok { h with fileHandles := h.fileHandles + 1 })
  | .closeFile => (decRef h).bind (fun h => .ok { h with fileHandles := h.fileHandles - 1 })
  | .wrapFile => if h.alive then .ok { h with fileHandles := h.fileHandles + 1 } else .ub

/-- A sequence of operations. -/
def handleRun (h : Handles) : List HandleOp → Res Handles
  | [] => .ok h
  | o :: r => (handleStep h o).bind (fun h => handleRun h r)

end Verif
