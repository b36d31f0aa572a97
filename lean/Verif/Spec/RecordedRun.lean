import Verif.Spec.Recorded

/-
Histories in which every write inside the extent may be issued, whether its blocks span whole dimensions or not.
-/

namespace Verif.Spec

open Classical in
/-- The number of leading dimensions that are not encoded. -/
noncomputable def skipOf (w : AW) : Nat := if Confined w then 1 else 0

/-- The write as it is recorded: the blocks of writes of several blocks are encoded. -/
noncomputable def recordedAs (w : AW) : AW := if 1 < w.bs.length then recorded (skipOf w) w else w

/-- What is left of a write: of several blocks those that span no whole dimension. -/
noncomputable def keptOf (w : AW) : AW := if 1 < w.bs.length then kept (skipOf w) w else w

/-- The file with `f w` in place of every write `w`. -/
def AFile.image (f : AW → AW) (a : AFile) : AFile :=
  { dsets := a.dsets, done := a.done.map f, queue := a.queue.map (List.map f), epoch := a.epoch.map (List.map f),
    secs := a.secs.map (List.map f) }

/-- Histories as in `Reach`, in which writes of several blocks need not be expressible: it is enough that they are inside
the extent.  The abstract file holds the writes as they were issued. -/
inductive ReachAny (cfg : Cfg) : FState → AFile → Prop
  | create (compact : Bool) (mbuf : Option Nat) (np : Nat) (disk : Mem) (h : 0 < np) (h2 : np < 2 ^ 31) :
      ReachAny cfg (FState.create cfg compact mbuf np disk) (AFile.create np)
  | addDset {st a} (d : DInfo) : ReachAny cfg st a → ReachAny cfg (st.addDset d) (a.addDset d)
  | setDims {st a} (did : Nat) (dims : List Nat) (d : DInfo) : ReachAny cfg st a →
      a.dsets[did]? = some (some d) → dims.length = d.ndim →
      ReachAny cfg (st.setDims did dims) (a.setDims did dims)
  | writeOne {st a st'} (r : Nat) (w : AW) : ReachAny cfg st a → MayWrite cfg a r w → w.bs.length ≤ 1 →
      st.write r w.did w.bs w.data = .ok st' → ReachAny cfg st' (a.write r w)
  | write {st a st'} (r : Nat) (w : AW) : ReachAny cfg st a → AnyWrite cfg a r w → r < a.queue.length →
      st.write r w.did w.bs w.data = .ok st' → ReachAny cfg st' (a.write r w)
  | flush {st a st'} (doff : Nat) : ReachAny cfg st a → Fresh st doff →
      st.fileFlush doff = .ok st' → Small st' → ReachAny cfg st' a.flush
  | prepare {st a st'} (coll : Bool) (doff mdoff : Nat) : ReachAny cfg st a → Fresh st doff →
      Fresh st mdoff → doff + queued a ≤ mdoff →
      (coll = true ∨ a.queue.length = 1 ∨ a.epoch.flatten = [] ∨ a.queue.flatten = []) →
      st.prepare coll doff mdoff = .ok st' → Small st' → ReachAny cfg st' (a.prepare coll)
  | search {st a st' raw} (fuel r : Nat) (qs : List RReq) : ReachAny cfg st a →
      a.epoch.flatten = [] → st.search fuel r qs = .ok (raw, st') → ReachAny cfg st' a
  | reopen {st a st'} (doff mdoff np : Nat) (compact : Bool) (mbuf : Option Nat) (gone : Nat → Bool) :
      ReachAny cfg st a → Fresh st doff → Fresh st mdoff → doff + queued a ≤ mdoff →
      0 < np → np < 2 ^ 31 → st.close doff mdoff = .ok st' → Small st' →
      ReachAny cfg (st'.reopen np compact mbuf gone) (a.flush.metaflush.reopen np gone)

end Verif.Spec
