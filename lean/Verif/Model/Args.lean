import Verif.Model.Queue

/-
H5Dwrite_n and H5Dread_n (src/H5VL_log.cpp L72-133, src/H5VL_log_dataset.cpp L580-652): the blocks of a call are in arrays `starts` and
`counts` of the application.  The selection object made of them keeps the pointers (src/H5VL_logi_dataspace.cpp L153-158); the one made of a
dataspace has arrays of its own (src/H5VL_logi_dataspace.cpp L165-437, L504-531).  A write encodes the blocks during the call
(src/H5VL_logi_nb.cpp L42-157) and the selection object is deleted when it returns (src/H5VL_log_dataset.cpp L646-649); a buffered read
keeps the object (`r->sels = dsel`, src/H5VL_log_dataseti.cpp L1085) and looks at it during the next H5Fflush.

Left out: blocking reads, which are over when the call returns; conversions and memory selections.  The arrays of a process that hold the
blocks of one call are taken as one object with one address.
-/

namespace Verif

/-- What is in the arrays `starts` and `counts` of a process at an address; `none`: nothing that may be accessed. -/
abbrev Arrs := Nat → Option (List Blk)

/-- The first `n` blocks at an address. -/
def Arrs.blocks (m : Arrs) (addr n : Nat) : Res (List Blk) :=
  match m addr with
  | some bs => if n ≤ bs.length then .ok (bs.take n) else .ub
  | none => .ub

/-- Blocks in the arrays of process `r`. -/
def fetch (arrs : List Arrs) (r addr n : Nat) : Res (List Blk) :=
  match arrs[r]? with
  | some m => m.blocks addr n
  | none => .ub

/-- The application writes to its arrays, or frees them. -/
def setArr (r addr : Nat) (o : Option (List Blk)) (arrs : List Arrs) : List Arrs :=
  arrs.modify r (fun m a => if a = addr then o else m a)

/-- Where the blocks of a queued read are: arrays of the connector, or `n` blocks in arrays of the application. -/
inductive Src
  | own (bs : List Blk)
  | app (addr n : Nat)

/-- `H5VL_log_rreq_t` of a queued read (src/H5VL_log_dataseti.cpp L1074-1085). -/
structure NReq where
  did : Nat
  d : DInfo
  src : Src
  xbuf : Nat

/-- A file, the reads queued by every process, their memory, and those of their arrays that hold blocks. -/
structure NState where
  st : FState
  rq : List (List NReq)
  mem : List Mem
  arrs : List Arrs

/-- What an application does between two flushes. `file`: any call that only concerns the file. -/
inductive AOp
  | writeN (r addr n did : Nat) (data : List Byte)
  | readN (r addr n did xbuf : Nat)
  | read (r did : Nat) (bs : List Blk) (xbuf : Nat)
  | set (r addr : Nat) (o : Option (List Blk))
  | file (f : FState → Res FState)

/-- A request is queued (src/H5VL_log_dataseti.cpp L1136-1138). -/
def NState.push (r did : Nat) (src : Src) (xbuf : Nat) (s : NState) : Res NState :=
  match s.st.dsets[did]? with
  | some (some d) => if r < s.rq.length then .ok { s with rq := s.rq.modify r (· ++ [⟨did, d, src, xbuf⟩]) } else .ub
  | _ => .ub

/-- One step. Calls with no blocks return at once (src/H5VL_log_dataseti.cpp L828, L1057); a read looks at the blocks during the call, too,
for their size (L1084). -/
def NState.step (op : AOp) (s : NState) : Res NState :=
  match op with
  | .writeN r addr n did data =>
    if n = 0 then .ok s
    else do
      let bs ← fetch s.arrs r addr n
      let st ← s.st.write r did bs data
      return { s with st := st }
  | .readN r addr n did xbuf =>
    if n = 0 then .ok s
    else do
      let _ ← fetch s.arrs r addr n
      s.push r did (.app addr n) xbuf
  | .read r did bs xbuf => if bs = [] then .ok s else s.push r did (.own bs) xbuf
  | .set r addr o => .ok { s with arrs := setArr r addr o s.arrs }
  | .file f => do
    let st ← f s.st
    return { s with st := st }

def NState.run : List AOp → NState → Res NState
  | [], s => .ok s
  | op :: ops, s => (s.step op).bind (NState.run ops)

/-- A queued read when it is executed: the blocks are where the selection object points to. -/
def NReq.resolve (m : Arrs) (q : NReq) : Res RReq :=
  match q.src with
  | .own bs => .ok ⟨q.did, q.d, bs, q.xbuf⟩
  | .app addr n => (m.blocks addr n).bind fun bs => .ok ⟨q.did, q.d, bs, q.xbuf⟩

def resolveList (m : Arrs) : List NReq → Res (List RReq)
  | [] => .ok []
  | q :: qs => (q.resolve m).bind fun q' => (resolveList m qs).bind fun qs' => .ok (q' :: qs')

def resolveAll : List Arrs → List (List NReq) → Res (List (List RReq))
  | _, [] => .ok []
  | [], _ :: _ => .ub
  | m :: ms, qs :: qss => (resolveList m qs).bind fun q => (resolveAll ms qss).bind fun qs' => .ok (q :: qs')

/-- H5Fflush: see `QState.Flush`; the arrays are accessed after the writes have been flushed. -/
inductive NState.Flush (fuel : Nat) (fill : Nat → Option (List Byte)) (doff mdoff : Nat) (s : NState) : Res NState → Prop
  | run {rq out} : resolveAll s.arrs s.rq = .ok rq → QState.Flush fuel fill doff mdoff ⟨s.st, rq, s.mem⟩ out →
      Flush fuel fill doff mdoff s (out.bind fun q => .ok ⟨q.st, s.rq.map fun _ => [], q.mem, s.arrs⟩)
  | dangling : resolveAll s.arrs s.rq = .ub → s.st.fileFlush doff ≠ .err → Flush fuel fill doff mdoff s .ub
  | broken : resolveAll s.arrs s.rq = .ub → s.st.fileFlush doff = .err → Flush fuel fill doff mdoff s .err

end Verif
