import Verif.Model.Bytes

/-
Loading and unloading the connector (src/H5VL_log_main.cpp L72-175): MPI and the two optional dataset operations.

The library calls `H5VL_log_init` when the connector is registered and `H5VL_log_obj_term` when its last reference is closed.
The application may use MPI on its own.
-/

namespace Verif

/-- MPI: before `MPI_Init`, in between, after `MPI_Finalize`. -/
inductive MpiSt where
  | down
  | up
  | over
deriving DecidableEq, Repr

/-- The variables of the connector (`mpi_inited`, `h5dwriten_registered`, L58-59), the operations the library has registered, MPI and
how often it was initialised and finalised, and whether the connector is loaded. -/
structure Plug where
  inited : Bool
  reg : Bool
  opW : Bool
  opR : Bool
  mpi : MpiSt
  inits : Nat
  finals : Nat
  loaded : Bool
deriving DecidableEq, Repr

/-- A process that has not used the connector yet. -/
def Plug.start (mpi : MpiSt) : Plug := ⟨false, false, false, false, mpi, 0, 0, false⟩

/-- `MPI_Init`: erroneous unless it is the first. -/
def mpiInit (p : Plug) : Res Plug := if p.mpi = .down then .ok { p with mpi := .up, inits := p.inits + 1 } else .ub

/-- `MPI_Finalize`: erroneous unless MPI is in use. -/
def mpiFinal (p : Plug) : Res Plug := if p.mpi = .up then .ok { p with mpi := .over, finals := p.finals + 1 } else .ub

/-- `MPI_Initialized`: true also after `MPI_Finalize` (MPI standard). -/
def mpiInited (p : Plug) : Bool := p.mpi != .down

/-- `H5VL_log_init` (L72-118): `w`, `r`: whether the library has room to register the operations; it refuses a name that is
registered.  A failure leaves the connector unloaded; nothing is undone. -/
def plugInit (w r : Bool) (p : Plug) : Res Plug :=
  (if mpiInited p then Res.ok { p with inited := true } else mpiInit { p with inited := false }).bind fun p =>
    if p.reg then .ok { p with loaded := true }
    else if !w || p.opW then .ok p
    else if !r || p.opR then .ok { p with opW := true }
    else .ok { p with opW := true, opR := true, reg := true, loaded := true }

/-- `H5VL_log_obj_term` (L132-164). The library drops the connector whatever is returned. -/
def plugTerm (p : Plug) : Res Plug :=
  if p.reg && !p.opW then .ok { p with loaded := false }
  else if p.reg && !p.opR then .ok { p with opW := false, loaded := false }
  else
    let p := if p.reg then { p with opW := false, opR := false, reg := false } else p
    if p.inited then .ok { p with loaded := false }
    else if mpiInited p then (mpiFinal { p with inited := true }).bind fun p => .ok { p with loaded := false }
    else .ok { p with loaded := false }

/-- What happens: the library loads or unloads the connector, the application initialises or finalises MPI. -/
inductive PlugOp where
  | load (w r : Bool)
  | unload
  | appInit
  | appFinal
deriving DecidableEq, Repr

/-- One operation. -/
def plugStep (p : Plug) : PlugOp → Res Plug
  | .load w r => plugInit w r p
  | .unload => plugTerm p
  | .appInit => mpiInit p
  | .appFinal => mpiFinal p

/-- A sequence of operations. -/
def plugRun (p : Plug) : List PlugOp → Res Plug
  | [] => .ok p
  | o :: os => (plugStep p o).bind fun p => plugRun p os

end Verif
