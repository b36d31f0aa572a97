import Verif.Model.Bytes

/-
User options: property setters and getters (src/H5VL_log.cpp L130-760) and their evaluation when a file is created or opened
(src/H5VL_log_filei.cpp L336-469, L129-133; src/H5VL_log_file.cpp L109-128, L282-302).

A property list is its class and the values of the properties of this connector; HDF5's `H5Pexist`, `H5Pinsert2`, `H5Pset`
and `H5Pget` are modelled by their contract on such lists.  Values are integers (booleans 0 and 1, enumerations their number).
-/

namespace Verif

/-- Classes of property lists. -/
inductive PClass where
  | fileAccess
  | fileCreate
  | transfer
  | other
deriving DecidableEq, Repr

/-- Options with a setter and a getter. -/
inductive Opt where
  | buffered
  | nbBuffer
  | idxBuffer
  | merge
  | share
  | zip
  | encoding
  | layout
  | subfiling
  | single
  | passthru
deriving DecidableEq, Repr

/-- The class tested by setter and getter. -/
def optClass : Opt → PClass
  | .buffered => .transfer
  | .layout | .subfiling | .single => .fileCreate
  | _ => .fileAccess

/-- Result of the getter when the property is absent or the class is wrong (`LOG_VOL_BSIZE_UNLIMITED` is -1). -/
def optDefault : Opt → Int
  | .nbBuffer | .idxBuffer => -1
  | .share => 1
  | _ => 0

/-- Setters that return immediately (`H5Pset_nb_buffer_size`, `H5Pset_idx_buffer_size`, `H5Pset_meta_merge`: L193, L250,
L307). -/
def optStub : Opt → Bool
  | .nbBuffer | .idxBuffer | .merge => true
  | _ => false

/-- Size the property is inserted with, and size of the variable (`H5Pset_sel_encoding` inserts `sizeof (size_t)` bytes from
and for a 4-byte enumeration: L489-494). -/
def optSize : Opt → Nat × Nat
  | .encoding => (8, 4)
  | .layout | .subfiling => (4, 4)
  | .nbBuffer | .idxBuffer => (8, 8)
  | _ => (1, 1)

/-- A property list: class and properties. -/
structure PList where
  cls : PClass
  vals : List (Opt × Int)
deriving DecidableEq, Repr

/-- The setters.  Copying more bytes than the variable has is undefined. -/
def setOpt (o : Opt) (p : PList) (v : Int) : Res PList :=
  if optStub o then .ok p
  else if p.cls ≠ optClass o then .err
  else if (optSize o).2 < (optSize o).1 then .ub
  else .ok { p with vals := (o, v) :: p.vals.filter (fun e => e.1 != o) }

/-- The getters; `H5Pget_passthru` fails on a list of another class (L748). -/
def getOpt (o : Opt) (p : PList) : Res Int :=
  if p.cls ≠ optClass o then (if o = .passthru then .err else .ok (optDefault o))
  else .ok (((p.vals.find? (fun e => e.1 == o)).map Prod.snd).getD (optDefault o))

/-- Environment variables. -/
inductive EnvVar where
  | merge
  | share
  | zip
  | encoding
  | idxBuffer
  | indexType
  | single
  | passthru
  | layout
  | nsubfiles
deriving DecidableEq, Repr

/-- The environment, and `atoi`/`atoll`. -/
structure Env where
  var : EnvVar → Option String
  atoi : String → Int

/-- Options of an open file: the bits of `config` by name, `mbuf_size`, `index_type` and `ngroup`. -/
structure FileOpts where
  merge : Bool
  encode : Bool
  zip : Bool
  share : Bool
  passthru : Bool
  align : Bool
  subfiling : Bool
  single : Bool
  mbuf : Int
  compact : Bool
  ngroup : Int
  bsize : Int
deriving DecidableEq, Repr

/-- `fp->config = 0`, before parsing. -/
def FileOpts.zero : FileOpts := ⟨false, false, false, false, false, false, false, false, 0, true, 0, 0⟩

/-- A bit set by property and replaced by the environment variable: `if (ret) config |= BIT; if (env) { strcmp ... }`. -/
def bitOf (old : Bool) (prop : Bool) (env : Option String) (onStr : String → Bool) : Bool :=
  env.elim (old || prop) onStr

/-- `H5VL_log_filei_parse_fapl` (L336-433). -/
def parseFapl (e : Env) (fapl : PList) (f : FileOpts) : Res FileOpts :=
  (getOpt .merge fapl).bind fun m =>
  (getOpt .share fapl).bind fun s =>
  (getOpt .zip fapl).bind fun z =>
  (getOpt .encoding fapl).bind fun enc =>
  (getOpt .idxBuffer fapl).bind fun ib =>
  (getOpt .single fapl).bind fun sg =>
  (getOpt .passthru fapl).bind fun pt =>
  .ok { f with
    merge := bitOf f.merge (m != 0) (e.var .merge) (· == "1")
    share := bitOf f.share (s != 0) (e.var .share) (· == "1")
    zip := bitOf f.zip (z != 0) (e.var .zip) (· == "1")
    encode := bitOf f.encode (enc == 0) (e.var .encoding) (· != "canonical")
    mbuf := (e.var .idxBuffer).elim ib e.atoi
    compact := (e.var .indexType).elim true (· == "compact")
    single := bitOf f.single (sg != 0) (e.var .single) (· == "1")
    passthru := bitOf f.passthru (pt != 0) (e.var .passthru) (· == "1") }

/-- `H5VL_log_filei_parse_fcpl` (L435-469). -/
def parseFcpl (e : Env) (fcpl : PList) (f : FileOpts) : Res FileOpts :=
  (getOpt .layout fcpl).bind fun l =>
  (getOpt .subfiling fcpl).bind fun n =>
  let ng := (e.var .nsubfiles).elim n (fun s => if 0 < s.length then e.atoi s else -1)
  .ok { f with
    align := bitOf f.align (l == 1) (e.var .layout) (· != "align")
    ngroup := ng
    subfiling := f.subfiling || ng != 0 }

/-- Options after `H5VL_log_file_create` (src/H5VL_log_file.cpp L109-128). -/
def createOpts (e : Env) (fapl fcpl : PList) : Res FileOpts :=
  (getOpt .nbBuffer fapl).bind fun b =>
  (parseFapl e fapl { FileOpts.zero with bsize := b }).bind fun f => parseFcpl e fcpl f

/-- The configuration word (src/H5VL_log_filei.hpp L12-21). -/
def FileOpts.word (f : FileOpts) : Int :=
  (if f.merge then 0x1 else 0) + (if f.encode then 0x2 else 0) + (if f.zip then 0x4 else 0) +
  (if f.share then 0x8 else 0) + (if f.passthru then 0x10 else 0) + (if f.align then 0x100 else 0) +
  (if f.subfiling then 0x200 else 0) + (if f.single then 0x400 else 0)

/-- Options after `H5VL_log_file_open` and `H5VL_log_filei_post_open`: the configuration is replaced by that stored in the
file (src/H5VL_log_filei.cpp L132), the number of subfiles by the configuration word (L133; before the processes are grouped) or,
without subfiling, by 1 (L150), and there is no aligned layout with subfiling (L157); `mbuf_size` and `index_type` remain. -/
def openOpts (e : Env) (fapl : PList) (stored : FileOpts) : Res FileOpts :=
  (getOpt .nbBuffer fapl).bind fun b =>
  (parseFapl e fapl { FileOpts.zero with bsize := b }).bind fun f =>
  .ok { stored with
    mbuf := f.mbuf, compact := f.compact, bsize := f.bsize
    align := stored.align && !stored.subfiling
    ngroup := if stored.subfiling then stored.word else 1 }

/-- `H5VL_log_filei_get_under_plist` (src/H5VL_log_filei.cpp L473-505): all properties but that of `H5Pset_buffered` are removed. -/
def underList (p : PList) : PList := { p with vals := p.vals.filter (fun e => e.1 == .buffered) }

/-- A call of a setter whose result is not looked at: after a failure the list is as before. -/
def setIgnored (o : Opt) (p : PList) (v : Int) : Res PList :=
  match setOpt o p v with
  | .err => .ok p
  | r => r

/-- `H5VL_log_file_get` for the access property list (src/H5VL_log_file.cpp L358-371); `p` is that of the file below. -/
def getFapl (f : FileOpts) (p : PList) : Res PList :=
  (if f.merge then setIgnored .merge p 1 else .ok p).bind fun p =>
  (if f.encode then setIgnored .encoding p 0 else .ok p).bind fun p =>
  (if f.zip then setIgnored .zip p 1 else .ok p).bind fun p =>
  if f.share then setIgnored .share p 1 else .ok p

/-- The objects below of an open file: `uo` (the file) and `sfp` (the file that has the data; `none`: NULL). -/
structure FileBelow where
  uo : Nat
  sfp : Option Nat
deriving DecidableEq, Repr

/-- After `H5VL_log_file_open` (src/H5VL_log_file.cpp L262, L292). -/
def belowOpen (uo : Nat) : FileBelow := ⟨uo, none⟩

/-- `H5VL_log_filei_post_open` (src/H5VL_log_filei.cpp L122-125, L155-163, L932): in an ordinary file it returns before `sfp` is set.
`sub` is the subfile. -/
def belowPost (b : FileBelow) (logBased subfiling : Bool) (sub : Nat) : FileBelow :=
  if !logBased then b else { b with sfp := some (if subfiling then sub else b.uo) }

/-- The call of the connector below in `H5VL_log_file_get` (src/H5VL_log_file.cpp L345-351): the access property list is asked from
`sfp`, all else from `uo`.  `H5VLfile_get` fails for NULL. -/
def fileGet {α : Type} (b : FileBelow) (fapl : Bool) (answer : Nat → Res α) : Res α :=
  match if fapl then b.sfp else some b.uo with
  | some u => answer u
  | none => .err

/-- `H5VL_log_file_get` for the creation property list (src/H5VL_log_file.cpp L354-357). -/
def getFcpl (f : FileOpts) (p : PList) : Res PList :=
  if f.subfiling then setIgnored .subfiling p f.ngroup else .ok p

end Verif
