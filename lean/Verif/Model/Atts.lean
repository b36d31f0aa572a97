import Verif.Model.Names
import Verif.Model.File

/-
What opening a file takes from the attributes in it, whatever they contain: `H5VL_log_filei_post_open`
(src/H5VL_log_filei.cpp L109-199), `H5VL_log_filei_dset_visit` (L293-319), `H5VL_log_dataseti_open`
(src/H5VL_log_dataseti.cpp L689-761), and the functions that read attributes (src/H5VL_logi_util.cpp L82-168).

Simplified: attributes have one dimension and numbers that convert; the type of a dataset is a number; the property list of the
datasets can be read.
-/

namespace Verif.Atts

/-- An attribute in the file: missing, or its values in the type of the buffer. -/
abbrev Att := Option (List Int)

/-- `H5VL_logi_get_att` and `H5VL_logi_get_att_ex` (src/H5VL_logi_util.cpp L82-111, L145-168) into a buffer for `cap` values: the
number of values is not compared with it. -/
def getAtt (cap : Nat) : Att → Res (List Int)
  | none => .err
  | some v => if cap < v.length then .ub else .ok v

/-- A value of the buffer: the others are not initialised. -/
def item (v : List Int) (i : Nat) : Res Int :=
  match v[i]? with
  | none => .ub
  | some x => .ok x

/-- A dataset in the file: stored name, type, attributes `_ID`, `_dims`, `_mdims`. -/
structure Ds where
  name : Name
  typ : Nat
  id : Att
  dims : Att
  mdims : Att
deriving DecidableEq, Repr

/-- `H5VL_log_dset_info_t`: type, current and largest sizes (`hsize_t`, from signed values). -/
structure Info where
  typ : Nat
  dims : List Int
  mdims : List Int
deriving DecidableEq, Repr

/-- An open file: `ndset`, `nldset`, `nmdset`, `config`, `dsets_info`. -/
structure Sess where
  ndset : Int
  nld : Int
  nmd : Int
  config : Int
  infos : List (Option Info)
deriving DecidableEq, Repr

/-- A bit of `config`. -/
def bit (config : Int) (k : Nat) : Bool := ((config % 2 ^ 32).toNat).testBit k

/-- `H5VL_log_dataseti_open` (L712-758): the session with the information of the dataset, and its number. -/
def openDs (s : Sess) (d : Ds) : Res (Sess × Int) := do
  let v ← getAtt 1 d.id
  let i ← item v 0
  if i < 0 then .ub else
  match s.infos[i.toNat]? with
  | none => .ub
  | some (some _) => return (s, i)
  | some none => do
    let dims ← getAtt 32 d.dims
    let mdims ← getAtt 32 d.mdims
    if bit s.config 1 ∧ dims = [] then .ub
    else return ({ s with infos := s.infos.set i.toNat (some ⟨d.typ, dims, mdims⟩) }, i)

/-- The dataset with a stored name. -/
def find (l : List Ds) (n : Name) : Option Ds := l.find? (fun d => d.name == n)

/-- `H5VL_log_dataset_open` (src/H5VL_log_dataset.cpp L234-273). -/
def openName (all : List Ds) (s : Sess) (n : Name) : Res (Sess × Int) := do
  let st ← nameRemap n
  match find all st with
  | none => .err
  | some d => openDs s d

/-- The visit of all datasets (L293-319): the first failure ends it, and the opening of the file. -/
def visit (all : List Ds) (s : Sess) : List Ds → Res Sess
  | [] => .ok s
  | d :: ds =>
    match visitName d.name with
    | none => visit all s ds
    | some n => do
      let r ← openName all s n
      visit all r.1 ds

/-- A file: whether the query for the attribute `_int_att` fails, the attribute, whether the group of the log is there and
whether a subfile can be opened, and the datasets in the order of the visit. -/
structure File where
  fails : Bool
  att : Att
  log : Bool
  sub : Bool
  objs : List Ds
deriving DecidableEq, Repr

inductive Opened where
  | ordinary
  | log (s : Sess)
deriving DecidableEq, Repr

/-- `H5VL_log_filei_post_open`: the error of the query is ignored (src/H5VL_logi_util.cpp L114-127, filei.cpp L124-125); five
values fit (L128), four are used (L130-134); `resize` throws for a negative number (L135). -/
def openFile (f : File) : Res Opened :=
  if f.fails ∨ f.att = none then .ok .ordinary else do
  let v ← getAtt 5 f.att
  let nd ← item v 0
  let nl ← item v 1
  let nm ← item v 2
  let cf ← item v 3
  if nd < 0 then .err
  else if bit cf 9 ∧ ¬ f.sub then .err
  else if ¬ f.log then .err
  else do
    let s ← visit f.objs ⟨nd, nl, nm, cf, List.replicate nd.toNat none⟩ f.objs
    return .log s

/-- The loop of `H5VL_log_filei_metaupdate` (src/H5VL_log_filei_meta.cpp L360-411) over `_md_i`, `_md_(i+1)`, ..., `n` of them,
in a file with the metadata datasets `mds`: one that is not there cannot be opened. -/
def loadN (dsets : DSets) (share : Bool) (disk : Mem) (mds : List Ext) : Nat → Nat → Idx → Res Idx
  | _, 0, ix => .ok ix
  | i, n + 1, ix =>
    match mds[i]? with
    | none => .err
    | some m => do
      let b ← m.body disk
      let ix' ← ix.parse dsets share b
      loadN dsets share disk mds (i + 1) n ix'

/-- The loop with `nmdset` from the attribute. -/
def loadCount (dsets : DSets) (share : Bool) (disk : Mem) (mds : List Ext) (nmd : Int) (ix : Idx) : Res Idx :=
  loadN dsets share disk mds 0 nmd.toNat ix

end Verif.Atts
