import Verif.Model.File

/-
Reads with a buffered transfer list: H5Dread puts the request into `fp->rreqs` and returns (src/H5VL_log_dataseti.cpp L1087-1089,
L1136-1138); H5Fflush executes the requests of all processes after the writes (src/H5VL_log_filei.cpp L669-687,
src/H5VL_logi_nb.cpp L522-590); H5Fclose does not look at them (src/H5VL_log_filei.cpp L710-842).

Left out: conversions and memory selections (the request reads into `xbuf`, see `Api` and `Held`), subfiles.
-/

namespace Verif

/-- A file, the reads queued by every process, the memory of every process. -/
structure QState where
  st : FState
  rq : List (List RReq)
  mem : List Mem

/-- H5Dread by process `r` with a buffered transfer list (src/H5VL_log_dataseti.cpp L1136-1138). -/
def QState.read (r : Nat) (q : RReq) (s : QState) : QState := { s with rq := s.rq.modify r (· ++ [q]) }

/-- Calls that do not look at the queue. -/
def QState.onFile (f : FState → Res FState) (s : QState) : Res QState := do
  let st ← f s.st
  return { s with st := st }

/-- `r->info` is a pointer: the request sees the dataset as it is when it is executed (src/H5VL_log_dataseti.cpp L1075). -/
def RReq.now (dsets : DSets) (q : RReq) : RReq :=
  match dsets[q.did]? with
  | some (some d) => { q with d := d }
  | _ => q

/-- `H5VL_log_nb_flush_read_reqs` on all processes (src/H5VL_logi_nb.cpp L522-590), from process `r` on; no process changes what another
one sees. -/
inductive ReadAll (fuel : Nat) (fill : Nat → Option (List Byte)) :
    Nat → FState → List (List RReq) → List Mem → Res (FState × List Mem) → Prop
  | nil (r : Nat) (st : FState) : ReadAll fuel fill r st [] [] (.ok (st, []))
  | ok {r st st' qs qss m m' ms raw out} : st.reads fuel r fill qs m (.ok m') → st.search fuel r qs = .ok (raw, st') →
      ReadAll fuel fill (r + 1) st' qss ms out →
      ReadAll fuel fill r st (qs :: qss) (m :: ms) (out.bind fun p => .ok (p.1, m' :: p.2))
  | err {r st qs qss m ms} : st.reads fuel r fill qs m .err → ReadAll fuel fill r st (qs :: qss) (m :: ms) .err
  | ub {r st qs qss m ms} : st.reads fuel r fill qs m .ub → ReadAll fuel fill r st (qs :: qss) (m :: ms) .ub

/-- H5Fflush, `H5VL_log_filei_flush` (src/H5VL_log_filei.cpp L669-687): the writes; if some process has queued reads, the metadata
(src/H5VL_logi_nb.cpp L320-321) and the reads. -/
inductive QState.Flush (fuel : Nat) (fill : Nat → Option (List Byte)) (doff mdoff : Nat) (s : QState) : Res QState → Prop
  | err : s.st.fileFlush doff = .err → Flush fuel fill doff mdoff s .err
  | ub : s.st.fileFlush doff = .ub → Flush fuel fill doff mdoff s .ub
  | idle {st1} : s.st.fileFlush doff = .ok st1 → s.rq.flatten = [] → Flush fuel fill doff mdoff s (.ok { s with st := st1 })
  | reads {st1 out} : s.st.fileFlush doff = .ok st1 → s.rq.flatten ≠ [] →
      ReadAll fuel fill 0 (if st1.metadirty then st1.metaflush mdoff else st1) (s.rq.map (·.map (RReq.now st1.dsets))) s.mem out →
      Flush fuel fill doff mdoff s (out.bind fun p => .ok ⟨p.1, s.rq.map fun _ => [], p.2⟩)

/-- H5Fclose, and what the application finds afterwards: the file, its memory. -/
def QState.close (doff mdoff : Nat) (s : QState) : Res (FState × List Mem) := do
  let st ← s.st.close doff mdoff
  return (st, s.mem)

end Verif
