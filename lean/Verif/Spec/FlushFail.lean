import Verif.Spec.File
import Verif.Model.FlushFail

/-
Histories in which flushes fail.
-/

namespace Verif.Spec

/-- Histories with failures: operations as in `Reach`, and flushes, in H5Fflush or H5Dread, that stop before they have created a
dataset. The abstract file does not know of failures: a flush that fails has no effect. (A read that fails in the flush of the metadata has
flushed the data.) H5Fclose does not fail here: a failed one cannot be repeated (`C70_retry_violated`). -/
inductive ReachF (cfg : Cfg) : GState → AFile → Prop
  | create (compact : Bool) (mbuf : Option Nat) (np : Nat) (disk : Mem) (h : 0 < np) (h2 : np < 2 ^ 31) :
      ReachF cfg ⟨FState.create cfg compact mbuf np disk, false⟩ (AFile.create np)
  | addDset {g a} (d : DInfo) : ReachF cfg g a → ReachF cfg { g with st := g.st.addDset d } (a.addDset d)
  | setDims {g a} (did : Nat) (dims : List Nat) (d : DInfo) : ReachF cfg g a →
      a.dsets[did]? = some (some d) → dims.length = d.ndim →
      ReachF cfg { g with st := g.st.setDims did dims } (a.setDims did dims)
  | write {g a st'} (r : Nat) (w : AW) : ReachF cfg g a → MayWrite cfg a r w →
      g.st.write r w.did w.bs w.data = .ok st' → ReachF cfg { g with st := st' } (a.write r w)
  | flush {g a g'} (doff : Nat) : ReachF cfg g a → Fresh g.st doff →
      g.fileFlush none doff = .ok g' → Small g'.st → ReachF cfg g' a.flush
  | flushFails {g a g'} (doff : Nat) : ReachF cfg g a → Fresh g.st doff →
      g.fileFlush (some .early) doff = .failed g' → ReachF cfg g' a
  | prepare {g a g'} (coll : Bool) (doff mdoff : Nat) : ReachF cfg g a → Fresh g.st doff →
      Fresh g.st mdoff → doff + queued a ≤ mdoff →
      (coll = true ∨ a.queue.length = 1 ∨ a.epoch.flatten = [] ∨ a.queue.flatten = []) →
      g.prepare none none coll doff mdoff = .ok g' → Small g'.st → ReachF cfg g' (a.prepare coll)
  | prepareFails {g a g'} (f f' : Option Stop) (coll : Bool) (doff mdoff : Nat) : ReachF cfg g a → Fresh g.st doff →
      (f = none ∨ f = some .early) → (f' = none ∨ f' = some .early) →
      g.prepare f f' coll doff mdoff = .failed g' → Small g'.st →
      ReachF cfg g' (if f = none ∧ (coll = true ∨ a.queue.length = 1) then a.flush else a)
  | search {g a st' raw} (fuel r : Nat) (qs : List RReq) : ReachF cfg g a →
      a.epoch.flatten = [] → g.st.search fuel r qs = .ok (raw, st') → ReachF cfg { g with st := st' } a
  | reopen {g a g'} (doff mdoff np : Nat) (compact : Bool) (mbuf : Option Nat) (gone : Nat → Bool) :
      ReachF cfg g a → Fresh g.st doff → Fresh g.st mdoff → doff + queued a ≤ mdoff →
      0 < np → np < 2 ^ 31 → g.close none none doff mdoff = .ok g' → Small g'.st →
      ReachF cfg { g' with st := g'.st.reopen np compact mbuf gone } (a.flush.metaflush.reopen np gone)

/-- Anything that may be done with a file, whether it succeeds or not: datasets are created and resized, processes write, data and
metadata are flushed, indexes are loaded (after dirty metadata has been flushed, src/H5VL_logi_nb.cpp L320-321), the file is closed and
opened again. -/
inductive GoesOn : GState → GState → Prop
  | refl (g) : GoesOn g g
  | addDset {g g'} (d : DInfo) : GoesOn g g' → GoesOn g { g' with st := g'.st.addDset d }
  | setDims {g g'} (did : Nat) (dims : List Nat) : GoesOn g g' → GoesOn g { g' with st := g'.st.setDims did dims }
  | write {g g' st'} (r did : Nat) (bs : List Blk) (data : List Byte) : GoesOn g g' → g'.st.write r did bs data = .ok st' →
      GoesOn g { g' with st := st' }
  | flush {g g' g''} (f : Option Stop) (doff : Nat) : GoesOn g g' → Fresh g'.st doff →
      g'.flush f doff = .ok g'' ∨ g'.flush f doff = .failed g'' → GoesOn g g''
  | metaflush {g g' g''} (f : Option Stop) (mdoff : Nat) : GoesOn g g' → Fresh g'.st mdoff →
      g'.metaflush f mdoff = .ok g'' ∨ g'.metaflush f mdoff = .failed g'' → GoesOn g g''
  | search {g g' st' raw} (fuel r : Nat) (qs : List RReq) : GoesOn g g' → g'.st.metadirty = false →
      g'.st.search fuel r qs = .ok (raw, st') →
      GoesOn g { g' with st := st' }
  | reopen {g g' g''} (doff mdoff np : Nat) (compact : Bool) (mbuf : Option Nat) (gone : Nat → Bool) : GoesOn g g' →
      Fresh g'.st doff → Fresh g'.st mdoff → g'.close none none doff mdoff = .ok g'' →
      GoesOn g { g'' with st := g''.st.reopen np compact mbuf gone }

end Verif.Spec
