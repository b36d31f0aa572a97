import Verif.Model.Passthru
import Verif.Props.SelSpace
import Verif.Spec.File

/-
Passthru mode: histories, results of reads, and the conditions under which they are right.
-/

namespace Verif.Spec

/-- Histories in passthru mode (see `Reach`). -/
inductive ReachP (cfg : Cfg) : FState → AFile → Prop
  | create (compact : Bool) (mbuf : Option Nat) (np : Nat) (disk : Mem) (h : 0 < np) (h2 : np < 2 ^ 31) :
      ReachP cfg (FState.create cfg compact mbuf np disk) (AFile.create np)
  | addDset {st a} (d : DInfo) : ReachP cfg st a → ReachP cfg (st.addDset d) (a.addDset d)
  | setDims {st a} (did : Nat) (dims : List Nat) (d : DInfo) : ReachP cfg st a →
      a.dsets[did]? = some (some d) → dims.length = d.ndim →
      ReachP cfg (st.setDims did dims) (a.setDims did dims)
  | write {st a st'} (r : Nat) (w : AW) : ReachP cfg st a → MayWrite cfg a r w →
      st.write r w.did w.bs w.data = .ok st' → ReachP cfg st' (a.write r w)
  | flush {st a st'} (doff : Nat) : ReachP cfg st a → Fresh st doff →
      st.fileFlushP doff = .ok st' → Small st' → ReachP cfg st' a.flush
  | prepare {st a st'} (coll : Bool) (doff mdoff : Nat) : ReachP cfg st a → Fresh st doff →
      Fresh st mdoff → doff + queued a ≤ mdoff →
      (coll = true ∨ a.queue.length = 1 ∨ a.epoch.flatten = [] ∨ a.queue.flatten = []) →
      st.prepareP coll doff mdoff = .ok st' → Small st' → ReachP cfg st' (a.prepare coll)
  | search {st a st' raw} (fuel r : Nat) (qs : List RReq) : ReachP cfg st a →
      a.epoch.flatten = [] → st.search fuel r qs = .ok (raw, st') → ReachP cfg st' a
  | reopen {st a st'} (doff mdoff np : Nat) (compact : Bool) (mbuf : Option Nat) (gone : Nat → Bool) :
      ReachP cfg st a → Fresh st doff → Fresh st mdoff → doff + queued a ≤ mdoff →
      0 < np → np < 2 ^ 31 → st.closeP doff mdoff = .ok st' → Small st' →
      ReachP cfg (st'.reopen np compact mbuf gone) (a.flush.metaflush.reopen np gone)

/-- Every process has queued less than 2 GiB. -/
def Light (a : AFile) : Prop := ∀ q ∈ a.queue, (q.map (fun w => w.data.length)).sum < 2 ^ 31

instance (a : AFile) : Decidable (Light a) := by
  unfold Light
  infer_instance

/-- The metadata of every process has less than 2 GiB. -/
def LightMd (st : FState) : Prop := ∀ n ∈ mdSizes st.ranks, n < 2 ^ 31

instance (st : FState) : Decidable (LightMd st) := by
  unfold LightMd
  infer_instance

/-- Process `r` reads `qs` in passthru mode: the read succeeds and returns what the writes `done` left (see `Returns`). -/
def ReturnsP (st : FState) (r : Nat) (qs : List RReq) (done : List AW) : Prop :=
  ∃ n, ∀ fuel ≥ n, ∀ fill mem, (∃ mem', st.readsP fuel r fill qs mem (.ok mem')) ∧
    ∀ out, st.readsP fuel r fill qs mem out → ∃ mem', out = .ok mem' ∧ ReadResult done fill qs mem mem'

/-- Requests that can be served in passthru mode: only the first and the last dimension of a block have more than one index, and the rows of
a block have less than 2 GiB. A scalar dataset is read once, and it was written with a single element each time. -/
structure Passable (log : List AW) (qs : List RReq) : Prop where
  flat : ∀ q ∈ qs, ∀ b ∈ q.bs, Props.Spec.Flat b.count
  row : ∀ q ∈ qs, ∀ b ∈ q.bs, ∀ n, b.count.getLast? = some n → n * q.d.esize < 2 ^ 31
  single : ∀ q ∈ qs, q.d.ndim = 0 → q.bs.length ≤ 1
  once : ∀ q ∈ qs, q.d.ndim = 0 → ∀ q' ∈ qs, q'.did = q.did → q' = q
  elem : ∀ q ∈ qs, q.d.ndim = 0 → ∀ w ∈ log, w.did = q.did → w.bs.length = 1

end Verif.Spec
