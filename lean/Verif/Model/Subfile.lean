import Verif.Model.Names

/-
Subfiles: their paths, their attributes, and the numbers of their data and metadata datasets
(src/H5VL_log_filei.cpp L106-198, L200-290, L738-760, L869-941; src/H5VL_logi_nb.cpp L544-582).

A subfile is changed only by the ranks of its group, which all do the same; the model is that of one group.  The file system is a
map from paths to files.
-/

namespace Verif

/-! ### Paths -/

/-- `basename` of a path that does not end with a slash. -/
def baseName (n : Name) : Name := (n.reverse.takeWhile (fun c => decide (c ≠ '/'))).reverse

/-- Path of the subfile that is created (`H5VL_log_filei_create_subfile`, filei.cpp L888-889). -/
def createPath (n : Name) (g : Nat) : Name := n ++ ".subfiles/".toList ++ baseName n ++ '.' :: digits g

/-- Path of the subfile that is opened (`H5VL_log_filei_open_subfile`, filei.cpp L931). -/
def openPath (n : Name) (g : Nat) : Name := n ++ ".subfiles/".toList ++ n ++ '.' :: digits g

/-- Path used by h5lreplay (utils/h5lreplay/h5lreplay.cpp L245-246); the same in h5ldump (utils/h5ldump/h5ldump.cpp L275-276). -/
def replayPath (n : Name) (g : Nat) : Name := n ++ ".subfiles/".toList ++ baseName n ++ '.' :: digits g

/-! ### Numbers of datasets -/

/-- Elements 1 and 2 of the attribute `_int_att`: numbers of data and metadata datasets. -/
structure SubAttr where
  nld : Nat
  nmd : Nat
deriving DecidableEq, Repr

/-- Flags of an open file (`fp->flag`): those given to `H5Fcreate` (src/H5VL_log_file.cpp L110) or to `H5Fopen` (L259). -/
inductive SFlag where
  | trunc
  | excl
  | opened
deriving DecidableEq, Repr

/-- The log group of the subfile: numbers of the datasets `_ld_N` and `_md_N` in it; its attribute; the attribute of the main
file; the counters of the open file. `logs = none`: the subfile has no log group. -/
structure SubSt where
  flag : SFlag
  logs : Option (List Nat × List Nat)
  sub : SubAttr
  main : SubAttr
  nld : Nat
  nmd : Nat
deriving DecidableEq, Repr

/-- File after `H5VL_log_filei_post_create` (filei.cpp L244-287, L894-902). -/
def SubSt.create (f : SFlag) : SubSt := ⟨f, some ([], []), ⟨0, 0⟩, ⟨0, 0⟩, 0, 0⟩

/-- The result of an operation: the state it leaves, and whether it succeeded. -/
abbrev SubRes := SubSt × Bool

/-- A flush of data creates `_ld_N` with `N = fp->nldset++` (src/H5VL_logi_nb.cpp L721-733); the name must be free. -/
def SubSt.flush (s : SubSt) : SubRes :=
  match s.logs with
  | none => (s, false)
  | some (l, m) => if s.nld ∈ l then (s, false) else ({ s with logs := some (l ++ [s.nld], m), nld := s.nld + 1 }, true)

/-- A flush of metadata creates `_md_N` with `N = fp->nmdset++` (src/H5VL_log_filei_meta.cpp L187-200). -/
def SubSt.metaflush (s : SubSt) : SubRes :=
  match s.logs with
  | none => (s, false)
  | some (l, m) => if s.nmd ∈ m then (s, false) else ({ s with logs := some (l, m ++ [s.nmd]), nmd := s.nmd + 1 }, true)

/-- `H5VL_log_filei_open_subfile` (filei.cpp L905-941) and the open of the log group after it (L172-176; logi_nb.cpp L570-574).
The subfile is opened with the flags of the file: an existing file is truncated with `H5F_ACC_TRUNC`, and cannot be opened with
`H5F_ACC_EXCL` (contract of the native VOL).  The counters are taken from the attribute of the main file (L935). -/
def SubSt.openSub (s : SubSt) : SubRes :=
  match s.flag with
  | .excl => (s, false)
  | .trunc => ({ s with logs := none, nld := s.main.nld, nmd := s.main.nmd }, false)
  | .opened => ({ s with nld := s.main.nld, nmd := s.main.nmd }, s.logs.isSome)

/-- `H5VL_log_nb_flush_read_reqs` with subfiling (logi_nb.cpp L544-582).  `found`: the path exists. -/
def SubSt.read (found single : Bool) (s : SubSt) : SubRes :=
  if single then (s, true) else if found then s.openSub else (s, false)

/-- `H5VL_log_filei_close` of a file that is not read-only (filei.cpp L738-766). -/
def SubSt.close (s : SubSt) : SubSt := { s with sub := ⟨s.nld, s.nmd⟩, main := ⟨0, 0⟩ }

/-- `H5VL_log_filei_post_open` (filei.cpp L106-176). -/
def SubSt.reopen (found : Bool) (s : SubSt) : SubRes :=
  if found then { s with flag := .opened, nld := s.main.nld, nmd := s.main.nmd }.openSub else (s, false)

/-! ### Options in the attribute of the subfile -/

/-- C negation of an `int`. -/
def cNot (x : Nat) : Nat := if x = 0 then 1 else 0

/-- Element 3 of the attribute of a new subfile: `fp->config & !(H5VL_FILEI_CONFIG_SUBFILING)` (filei.cpp L899). -/
def subConfigCreate (config : Nat) : Nat := config &&& cNot 0x200

/-- Element 3 of the attribute of a subfile that is closed: `fp->config & (~(H5VL_FILEI_CONFIG_SUBFILING))` (L757-758). -/
def subConfigClose (config : BitVec 32) : BitVec 32 := config &&& ~~~ 0x200#32

end Verif
