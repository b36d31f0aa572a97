import Verif.Spec.File
import Verif.Model.WriteFail

/-
Histories in which writes fail.
-/

namespace Verif.Spec

/-- The writes have different selections, also apart from the record; with selection encoding, both are confined to a record or
neither is, unless one has a single block. -/
structure Unlike (cfg : Cfg) (w v : AW) : Prop where
  sel : ¬ SameSel v w
  mix : cfg.selEncode = true → 1 < w.bs.length → 1 < v.bs.length → (Confined w ↔ Confined v)

/-- A failed write that leaves nothing: selections are not shared, or this process has written the same selection of a dataset of the same
shape since the last flush of the metadata, or the selection is one element of a one-dimensional record dataset. -/
def Traceless (cfg : Cfg) (a : AFile) (r : Nat) (w : AW) : Prop :=
  cfg.share = false ∨
  (∃ p q w', a.epoch[r]? = some p ∧ a.queue[r]? = some q ∧ w' ∈ p ++ q ∧ w'.d = w.d ∧ w'.bs = w.bs) ∨
  (Confined w ∧ w.d.ndim = 1 ∧ w.bs.length = 1)

/-- Histories with failures: operations as in `Reach`, and writes that fail. The abstract file does not know of failures. `F` are, for every
process, the writes that have failed since the last flush of the metadata, except for those that leave nothing: no selection of theirs is
written again before the next one. -/
inductive ReachW (cfg : Cfg) : FState → List (List AW) → AFile → Prop
  | create (compact : Bool) (mbuf : Option Nat) (np : Nat) (disk : Mem) (h : 0 < np) (h2 : np < 2 ^ 31) :
      ReachW cfg (FState.create cfg compact mbuf np disk) (List.replicate np []) (AFile.create np)
  | addDset {st F a} (d : DInfo) : ReachW cfg st F a → ReachW cfg (st.addDset d) F (a.addDset d)
  | setDims {st F a} (did : Nat) (dims : List Nat) (d : DInfo) : ReachW cfg st F a →
      a.dsets[did]? = some (some d) → dims.length = d.ndim →
      ReachW cfg (st.setDims did dims) F (a.setDims did dims)
  | write {st F a st'} (r : Nat) (w : AW) : ReachW cfg st F a → MayWrite cfg a r w →
      (cfg.share = true → ∀ f, F[r]? = some f → ∀ v ∈ f, Unlike cfg w v) →
      st.write r w.did w.bs w.data = .ok st' → ReachW cfg st' F (a.write r w)
  | writeFails {st F a st'} (r : Nat) (w : AW) : ReachW cfg st F a → WriteOK cfg w → a.dsets[w.did]? = some (some w.d) →
      st.writeFails r w.did w.bs = .ok st' → ReachW cfg st' (F.modify r (fun f => f ++ [w])) a
  | traceless {st F a st'} (r : Nat) (w : AW) : ReachW cfg st F a → WriteOK cfg w → a.dsets[w.did]? = some (some w.d) →
      Traceless cfg a r w → st.writeFails r w.did w.bs = .ok st' → ReachW cfg st' F a
  | flush {st F a st'} (doff : Nat) : ReachW cfg st F a → Fresh st doff →
      st.fileFlush doff = .ok st' → Small st' → ReachW cfg st' F a.flush
  | prepare {st F a st'} (coll : Bool) (doff mdoff : Nat) : ReachW cfg st F a → Fresh st doff →
      Fresh st mdoff → doff + queued a ≤ mdoff →
      (coll = true ∨ a.queue.length = 1 ∨ a.epoch.flatten = [] ∨ a.queue.flatten = []) →
      st.prepare coll doff mdoff = .ok st' → Small st' →
      ReachW cfg st' (if (if coll || decide (a.queue.length = 1) then a.flush else a).epoch.flatten = [] then F else
        F.map (fun _ => [])) (a.prepare coll)
  | search {st F a st' raw} (fuel r : Nat) (qs : List RReq) : ReachW cfg st F a →
      a.epoch.flatten = [] → st.search fuel r qs = .ok (raw, st') → ReachW cfg st' F a
  | reopen {st F a st'} (doff mdoff np : Nat) (compact : Bool) (mbuf : Option Nat) (gone : Nat → Bool) :
      ReachW cfg st F a → Fresh st doff → Fresh st mdoff → doff + queued a ≤ mdoff →
      0 < np → np < 2 ^ 31 → st.close doff mdoff = .ok st' → Small st' →
      ReachW cfg (st'.reopen np compact mbuf gone) (List.replicate np []) (a.flush.metaflush.reopen np gone)

end Verif.Spec
