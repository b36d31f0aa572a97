import Verif.Model.File
import Verif.Model.SelSpace

/-
Passthru mode (`H5VL_FILEI_CONFIG_PASSTHRU`): the contents of the log and metadata datasets go through the connector below instead
of MPI-IO. src/H5VL_logi_nb.cpp L803-833 (flush of the data), src/H5VL_log_filei_meta.cpp L246-275 (flush of the metadata),
src/H5VL_log_dataseti.cpp L150-155 and L161-442 (reads).  Calls of the connector below that should succeed do; what it stores for byte
`i` of a dataset is what MPI-IO finds at the address of the dataset plus `i`.
-/

namespace Verif

/-! ### Writes -/

/-- The loop that collects the blocks in one buffer, src/H5VL_logi_nb.cpp L819-823, src/H5VL_log_filei_meta.cpp L261-265. The position
is an `int` (the inner `mstart` hides the outer one of type `hsize_t`), so it overflows after 2^31 bytes. -/
def packLoop (pos : Nat) : List (List Byte) → Res (List Byte)
  | [] => .ok []
  | b :: bs =>
    if pos + b.length < 2 ^ 31 then do
      let t ← packLoop (pos + b.length) bs
      return b ++ t
    else .ub

/-- `H5Sselect_hyperslab` on a dataset and H5VLdataset_write of as many bytes: a selection outside of the dataset is refused. -/
def Ext.put (e : Ext) (disk : Mem) (off : Nat) (bs : List Byte) : Res Mem :=
  if off + bs.length ≤ e.size then .ok (writeAt disk (off + e.addr) bs) else .err

/-- All processes write their buffers at their offsets. -/
def putAll (e : Ext) : Mem → List (List (List Byte) × Nat) → Res Mem
  | disk, [] => .ok disk
  | disk, p :: ps => do
    let b ← packLoop 0 p.1
    let d ← e.put disk p.2 b
    putAll e d ps

/-- `H5VL_log_nb_flush_write_reqs` in passthru mode, src/H5VL_logi_nb.cpp L592-894. -/
def FState.flushP (doff : Nat) (st : FState) : Res FState :=
  if st.ranks.all (fun k => k.pending.all (fun r => decide (r.data.length < 2 ^ 31))) then
    let sizes := st.ranks.map Rank.localSize
    if sizes.sum = 0 then .ok { st with ranks := st.ranks.map Rank.setLocal }
    else do
      let offs := exscan 0 sizes
      let disk ← putAll ⟨doff, sizes.sum⟩ st.disk ((st.ranks.map (fun k => k.pending.map (fun r => r.data))).zip offs)
      return { st with
        ranks := List.zipWith (fun k off => k.flushAt (off + doff)) st.ranks offs
        disk := disk
        lds := st.lds ++ [⟨doff, sizes.sum⟩]
        metadirty := true }
  else .ub

/-- The pieces of the metadata of the processes: the section map, on process 0, and the requests (`offs`, `lens`,
src/H5VL_log_filei_meta.cpp L100-124). -/
def mdPieces (ranks : List Rank) : List (List (List Byte)) :=
  ranks.mapIdx (fun i k =>
    (if i = 0 then [putWords (ranks.length :: inscan 0 (mdSizes ranks))] else []) ++ k.wreqs.map WReq.bytes)

/-- `H5VL_log_filei_metaflush` in passthru mode, src/H5VL_log_filei_meta.cpp L49-320. -/
def FState.metaflushP (mdoff : Nat) (st : FState) : Res FState := do
  let total := (mdSizes st.ranks).sum
  let st' ← (if 8 * (st.ranks.length + 1) < total then do
      let disk ← putAll ⟨mdoff, total⟩ st.disk ((mdPieces st.ranks).zip (exscan 0 (mdSizes st.ranks)))
      return { st with disk := disk, mds := st.mds ++ [⟨mdoff, total⟩] }
    else .ok st : Res FState)
  return { st' with
    ranks := st.ranks.map (fun _ => Rank.init)
    idx := st.idx.map (fun _ => none)
    metadirty := false }

/-- H5Fflush in passthru mode, src/H5VL_log_filei.cpp L669-687. -/
def FState.fileFlushP (doff : Nat) (st : FState) : Res FState :=
  if st.anyPending then st.flushP doff else .ok st

/-- What a read does before it looks at the log, in passthru mode (`FState.prepare`). -/
def FState.prepareP (coll : Bool) (doff mdoff : Nat) (st : FState) : Res FState := do
  let st1 ← (if (coll || decide (st.ranks.length = 1)) && st.anyPending then st.flushP doff
    else .ok st : Res FState)
  if st1.metadirty then st1.metaflushP mdoff else .ok st1

/-- H5Fclose in passthru mode (`FState.close`). -/
def FState.closeP (doff mdoff : Nat) (st : FState) : Res FState := do
  let st1 ← st.flushP doff
  let st2 ← st1.metaflushP mdoff
  return { st2 with saved := st2.mds.length }

/-! ### Reads -/

/-- `foff2logidx`, src/H5VL_log_dataseti.cpp L150-155: the last log dataset that does not begin after the address. -/
def logAt (lds : List Ext) (f : Int) : Option Ext := lds.reverse.find? (fun e => decide ((e.addr : Int) ≤ f))

/-- Read of consecutive bytes, src/H5VL_log_dataseti.cpp L423-438; an empty selection is no error. -/
def passSeg (lds : List Ext) (s : Seg) : Res (List (Int × Nat)) :=
  match logAt lds s.f with
  | none => .err
  | some e => if s.len = 0 ∨ (s.f - e.addr).toNat + s.len ≤ e.size then .ok s.pairs else .err

/-- One group of blocks, src/H5VL_log_dataseti.cpp L293-440: what is read, in order, and the copies to be made afterwards. -/
def passGroup (lds : List Ext) (g : List Hit) : Res (List (Int × Nat) × List Copy) :=
  match g with
  | [h] =>
    match logAt lds h.key with
    | none => .err
    | some e => do
      let p ← passHit e.addr e.size h
      return (p, [])
  | _ => do
    let s ← flatMapRes hitRows g
    let p ← flatMapRes (passSeg lds) (trim (sortoffsets s)).1
    return (p, (trim (sortoffsets s)).2)

def passGroups (lds : List Ext) : List (List Hit) → Res (List (Int × Nat) × List Copy)
  | [] => .ok ([], [])
  | g :: gs => do
    let a ← passGroup lds g
    let b ← passGroups lds gs
    return (a.1 ++ b.1, a.2 ++ b.2)

/-- `H5VL_log_dataset_readi_passthru`, src/H5VL_log_dataseti.cpp L161-442, and the copies of src/H5VL_logi_nb.cpp L427-428: every read
is performed when it is met. Sorted search results, unfiltered datasets, memory type equal to the dataset type. -/
def readHitsP (disk : Mem) (lds : List Ext) (hs : List Hit) (mem : Mem) : Res Mem := do
  let g ← passGroups lds (groups hs)
  return g.2.foldl (fun m c => memcpy c m) (applyPairs disk g.1 mem)

/-- A read by process `r` in passthru mode: a possible final state of its memory. -/
def FState.readsP (fuel r : Nat) (fill : Nat → Option (List Byte)) (qs : List RReq) (mem : Mem)
    (st : FState) (out : Res Mem) : Prop :=
  (∃ raw st' hs, st.search fuel r qs = .ok (raw, st') ∧ SortedHits raw hs ∧
    out = readHitsP st.disk st.lds hs (prefill fill qs mem)) ∨
  (st.search fuel r qs = .err ∧ out = .err) ∨ (st.search fuel r qs = .ub ∧ out = .ub)

/-! ### Filtered datasets -/

/-- A block of a filtered dataset, src/H5VL_log_dataseti.cpp L296-318: `foff` and `fsize` are those of its entry. All of the log dataset is
selected, and the memory space has `fsize` bytes; the connector below refuses selections of different sizes. What is read: address and
size. -/
def passFiltered (lds : List Ext) (foff : Int) (fsize : Nat) : Res (Nat × Nat) :=
  if fsize = 0 then .ok (0, 0) else
  match logAt lds foff with
  | none => .err
  | some e => if e.size = fsize then .ok (e.addr, e.size) else .err

/-! ### Failures -/

/-- An element of the arrays `ldps` and `fspace_ids`, which come from `malloc`. -/
inductive Slot where
  | unset
  | null
  | open
deriving DecidableEq, Repr

/-- The `finally` block, src/H5VL_log_dataseti.cpp L197-218, on one of the arrays: an element that has not been set is compared and passed
to `H5VLdataset_close` or `H5Sclose`. -/
def closeSlots : List Slot → Res Unit
  | [] => .ok ()
  | .unset :: _ => .ub
  | _ :: ss => closeSlots ss

/-- The loop that opens the log datasets, src/H5VL_log_dataseti.cpp L222-245, for `n` of them, and the `finally` block; `opens i` says whether
log dataset number `i` can be opened. The exception of `CHECK_PTR` leaves the loop. -/
def openLogs (opens : Nat → Bool) (n : Nat) : Nat → Nat → List Slot → List Slot → Res Unit
  | 0, _, ldps, spaces => do
    closeSlots ldps
    closeSlots spaces
  | k + 1, i, ldps, spaces =>
    if opens i then openLogs opens n k (i + 1) (ldps.set i .open) (spaces.set i .open)
    else do
      closeSlots (ldps.set i .null)
      closeSlots spaces
      .err

/-- Opening and closing of the log datasets in a read. -/
def passOpen (opens : Nat → Bool) (n : Nat) : Res Unit :=
  openLogs opens n n 0 (List.replicate n .unset) (List.replicate n .unset)

end Verif
