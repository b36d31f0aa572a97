import Verif.Spec.File

/-
Sessions that end with the death of all processes.
-/

namespace Verif.Spec

/-- What a session that opened the file in the state `st0`, `a0` may have done so far: create datasets, change
their sizes, write, flush and read. The conditions are those of `Reach`. The file has not been closed. -/
inductive Session (cfg : Cfg) (st0 : FState) (a0 : AFile) : FState → AFile → Prop
  | start : Session cfg st0 a0 st0 a0
  | addDset {st a} (d : DInfo) : Session cfg st0 a0 st a → Session cfg st0 a0 (st.addDset d) (a.addDset d)
  | setDims {st a} (did : Nat) (dims : List Nat) (d : DInfo) : Session cfg st0 a0 st a →
      a.dsets[did]? = some (some d) → dims.length = d.ndim →
      Session cfg st0 a0 (st.setDims did dims) (a.setDims did dims)
  | write {st a st'} (r : Nat) (w : AW) : Session cfg st0 a0 st a → MayWrite cfg a r w →
      st.write r w.did w.bs w.data = .ok st' → Session cfg st0 a0 st' (a.write r w)
  | flush {st a st'} (doff : Nat) : Session cfg st0 a0 st a → Fresh st doff →
      st.fileFlush doff = .ok st' → Small st' → Session cfg st0 a0 st' a.flush
  | prepare {st a st'} (coll : Bool) (doff mdoff : Nat) : Session cfg st0 a0 st a → Fresh st doff →
      Fresh st mdoff → doff + queued a ≤ mdoff →
      (coll = true ∨ a.queue.length = 1 ∨ a.epoch.flatten = [] ∨ a.queue.flatten = []) →
      st.prepare coll doff mdoff = .ok st' → Small st' → Session cfg st0 a0 st' (a.prepare coll)
  | search {st a st' raw} (fuel r : Nat) (qs : List RReq) : Session cfg st0 a0 st a →
      a.epoch.flatten = [] → st.search fuel r qs = .ok (raw, st') → Session cfg st0 a0 st' a

/-- The file `st'` left behind by a session that opened it in the state `st0` and died in the state `st`, possibly in
the middle of a flush: the space beyond everything allocated may hold anything, log datasets created by the session may
be in the file or not, and so may changes of the sizes of datasets. -/
structure LeftBehind (st0 st st' : FState) : Prop where
  disk : ∃ off, Fresh st off ∧ ∀ x < off, st'.disk x = st.disk x
  old : ∀ e ∈ st0.lds, e ∈ st'.lds
  new : ∀ e ∈ st'.lds, e ∈ st.lds
  mds : st'.mds = st.mds
  saved : st'.saved = st.saved
  cfg : st'.cfg = st.cfg
  num : st'.dsets.length = st0.dsets.length
  gone : ∀ i : Nat, st0.dsets[i]? = some none → st'.dsets[i]? = some none
  here : ∀ (i : Nat) (d : DInfo), st0.dsets[i]? = some (some d) → ∃ dims, dims.length = d.ndim ∧
    st'.dsets[i]? = some (some { d with dims := dims })

/-- The lives of a file. It is opened in the states given here: after its creation, after a session that closed it, or
after a session that died. The abstract file says which writes have to be found: those of the sessions that
closed the file. A session that dies has not created a dataset. (If a log dataset of a dead session is in the file, later
flushes of data fail in the code, see C58; the sessions here are those whose operations succeed.) -/
inductive Life (cfg : Cfg) : FState → AFile → Prop
  | create (compact : Bool) (mbuf : Option Nat) (np : Nat) (disk : Mem) (h : 0 < np) (h2 : np < 2 ^ 31) :
      Life cfg (FState.create cfg compact mbuf np disk) (AFile.create np)
  | close {st0 a0 st a st'} (doff mdoff np : Nat) (compact : Bool) (mbuf : Option Nat) (gone : Nat → Bool) :
      Life cfg st0 a0 → Session cfg st0 a0 st a → Fresh st doff → Fresh st mdoff → doff + queued a ≤ mdoff →
      0 < np → np < 2 ^ 31 → st.close doff mdoff = .ok st' → Small st' →
      Life cfg (st'.reopen np compact mbuf gone) (a.flush.metaflush.reopen np gone)
  | die {st0 a0 st a st'} (np : Nat) (compact : Bool) (mbuf : Option Nat) (gone : Nat → Bool) :
      Life cfg st0 a0 → Session cfg st0 a0 st a → a.dsets.length = a0.dsets.length → LeftBehind st0 st st' →
      0 < np → np < 2 ^ 31 →
      Life cfg (st'.reopen np compact mbuf gone) (({ a0 with dsets := st'.dsets }).reopen np gone)

end Verif.Spec
