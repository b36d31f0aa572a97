import Verif.Model.Bytes

/-
Optional operations and introspection: src/H5VL_log_main.cpp L86-94, L151-158, src/H5VL_log.cpp L72-132 (H5Dwrite_n, H5Dread_n),
src/H5VL_log_dataset.cpp L41-42, L581-653, src/H5VL_log_introspect.cpp.

The library numbers the optional operations that connectors register (H5VLregister_opt_operation): from 1024 on, in the order of
registration; numbers below are those of the native connector.  A number is not used twice.  An optional operation of a dataset
(H5VLdataset_optional_op) is passed to the connector of the dataset, whatever its number.
-/

namespace Verif

/-- First number of a registered operation (`H5VL_RESERVED_NATIVE_OPTIONAL`). -/
def optFirst : Nat := 1024

/-- `H5VL_NATIVE_DATASET_FORMAT_CONVERT`: the native connector converts the index of the dataset to the earliest format. -/
def optConvert : Nat := 0

/-- The operations on datasets that the library has registered, with the next number. -/
structure OptReg where
  next : Nat
  ops : List (String × Nat)

/-- `H5VLregister_opt_operation`: a name that is registered is refused. -/
def OptReg.add (name : String) (g : OptReg) : Option (Nat × OptReg) :=
  if g.ops.any (fun o => o.1 == name) then none else some (g.next, ⟨g.next + 1, (name, g.next) :: g.ops⟩)

/-- `H5VLunregister_opt_operation`: a name that is not registered is refused. -/
def OptReg.del (name : String) (g : OptReg) : Option OptReg :=
  if g.ops.any (fun o => o.1 == name) then some { g with ops := g.ops.filter (fun o => o.1 != name) } else none

/-- The names of the operations of the connector (main.cpp L87, L90). -/
def optW : String := "H5VL_log.H5Dwrite_n"
def optR : String := "H5VL_log.H5Dread_n"

/-- The process: registered operations, `H5Dwrite_n_op_val`, `H5Dread_n_op_val` (dataset.cpp L41-42), `h5dwriten_registered` and
whether the connector is loaded. -/
structure OptSt where
  reg : OptReg
  wval : Nat
  rval : Nat
  flag : Bool
  loaded : Bool

/-- A process in which the connector has not been loaded; other connectors may have registered operations. -/
def OptSt.start (g : OptReg) : OptSt := ⟨g, 0, 0, false, false⟩

/-- `H5VL_log_init` (L86-94), without MPI (C63). -/
def optLoad (s : OptSt) : OptSt :=
  if s.flag then { s with loaded := true }
  else match s.reg.add optW with
    | none => s
    | some (w, g) =>
      match g.add optR with
      | none => { s with reg := g, wval := w }
      | some (r, g') => ⟨g', w, r, true, true⟩

/-- `H5VL_log_obj_term` (L151-158).  The variables with the numbers keep their values. -/
def optUnload (s : OptSt) : OptSt :=
  if s.flag then
    match s.reg.del optW with
    | none => { s with loaded := false }
    | some g =>
      match g.del optR with
      | none => { s with reg := g, loaded := false }
      | some g' => { s with reg := g', flag := false, loaded := false }
  else { s with loaded := false }

/-- What happens in the process. -/
inductive OptEv where
  | load
  | unload
  /-- Another connector registers or removes an operation. -/
  | other (name : String)
  | otherDel (name : String)

def optStep (s : OptSt) : OptEv → OptSt
  | .load => optLoad s
  | .unload => optUnload s
  | .other name => match s.reg.add name with
    | none => s
    | some (_, g) => { s with reg := g }
  | .otherDel name => match s.reg.del name with
    | none => s
    | some g => { s with reg := g }

def optRun (s : OptSt) (es : List OptEv) : OptSt := es.foldl optStep s

/-- A connector as far as the optional operations of a dataset are concerned: what the operation with a number does (`none`: it fails),
and the answer to `opt_query` (`none`: the query fails; bit 0, `H5VL_OPT_QUERY_SUPPORTED`: the operation is supported). -/
structure OptConn (δ : Type) where
  op : Nat → δ → Option δ
  query : Nat → Option Nat

/-- A dataset: of another connector, in an ordinary file opened through this one, or in a log file. -/
inductive OptObj (σ δ : Type) where
  | foreign (d : δ)
  | ordinary (d : δ)
  | log (s : σ) (anchor : δ)

/-- The transfers of H5Dwrite_n and H5Dread_n in a log file (C17, C80). -/
structure OptXfer (σ : Type) where
  writeN : σ → Option σ
  readN : σ → Option σ

variable {σ δ : Type}

/-- `H5VL_log_dataset_optional` (dataset.cpp L581-653). -/
def datasetOptional (s : OptSt) (x : OptXfer σ) (below : OptConn δ) (n : Nat) : OptObj σ δ → Option (OptObj σ δ)
  | .foreign d => (below.op n d).map .foreign
  | .ordinary d => (below.op n d).map .ordinary
  | .log t a =>
    if n = s.wval then (x.writeN t).map (.log · a)
    else if n = s.rval then (x.readN t).map (.log · a)
    else (below.op n a).map (.log t)

/-- `H5Dwrite_n` (H5VL_log.cpp L72-101) and `H5Dread_n` (L103-132). -/
def h5dwriteN (s : OptSt) (x : OptXfer σ) (below : OptConn δ) (o : OptObj σ δ) : Option (OptObj σ δ) := datasetOptional s x below s.wval o
def h5dreadN (s : OptSt) (x : OptXfer σ) (below : OptConn δ) (o : OptObj σ δ) : Option (OptObj σ δ) := datasetOptional s x below s.rval o

/-- H5VLquery_optional: for datasets of this connector `H5VL_log_introspect_opt_query` (introspect.cpp L82-95). -/
def optQuery (below : OptConn δ) (n : Nat) : OptObj σ δ → Option Nat
  | .foreign _ => below.query n
  | .ordinary _ => below.query n
  | .log _ _ => below.query n

/-- A connector on the way to the storage. -/
inductive VolLayer where
  /-- This connector. -/
  | log
  /-- Another one that passes calls on. -/
  | pass (cls : Nat)
  | terminal (cls : Nat)
deriving DecidableEq

inductive ConnLvl where
  | curr
  | term
deriving DecidableEq

/-- Class of the connector (`H5VL_log_g`). -/
inductive ConnCls where
  | log
  | other (cls : Nat)
deriving DecidableEq

/-- `H5VL_log_introspect_get_conn_cls` (introspect.cpp L31-46) and its counterparts in other connectors; a stack without end of calls
is not defined. -/
def connCls (lvl : ConnLvl) : List VolLayer → Res ConnCls
  | [] => .ub
  | .log :: below => if lvl = .curr then .ok .log else connCls lvl below
  | .pass c :: below => if lvl = .curr then .ok (.other c) else connCls lvl below
  | .terminal c :: _ => .ok (.other c)

/-- The connector information in a file access property list (H5Pset_vol): none, or the connector below with its own. -/
inductive VolInfo where
  | null
  | under (conn : Nat) (info : VolInfo)

/-- `H5VL_log_introspect_get_cap_flags` (introspect.cpp L58-71): the structure is used without a test.  `caps`: the flags of the connectors below. -/
def capFlags (caps : Nat → VolInfo → Option Nat) : VolInfo → Res Nat
  | .null => .ub
  | .under c i => match caps c i with
    | none => .err
    | some f => .ok f

end Verif
