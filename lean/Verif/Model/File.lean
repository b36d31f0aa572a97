import Verif.Model.Rank
import Verif.Model.Read

/-
An open file shared by `np` processes: data flush, metadata flush, loading of the index, reads, close
and open. src/H5VL_logi_nb.cpp L315-339 and L522-894, src/H5VL_log_filei_meta.cpp, src/H5VL_log_filei.cpp
L109-291, L669-687, L710-842, src/H5VL_log_dataseti.cpp L1034-1141.

Collective calls are modelled as one step of all processes. No subfiling, no merging, no passthru (`Passthru.lean`), no
aligned layout.
-/

namespace Verif

/-- Contents of a range of the file. -/
def fileBytes (disk : Mem) (addr n : Nat) : List Byte := (List.range n).map (fun i => disk (addr + i))

/-- Write of consecutive bytes (`MPI_File_write_at_all`). -/
def writeAt (disk : Mem) (off : Nat) (bs : List Byte) : Mem :=
  fun a => if off ≤ a then (bs[a - off]?).getD (disk a) else disk a

/-- `fp->idx`, src/H5VL_logi_idx.hpp: one of the two index types. -/
inductive Idx where
  | list (es : List MEnt)
  | comp (es : List CEnt)
deriving DecidableEq, Repr

/-- A cleared index. -/
def Idx.empty (compact : Bool) : Idx := if compact then .comp [] else .list []

/-- `fp->idx->parse_block`: entries are appended. -/
def Idx.parse (dsets : DSets) (share : Bool) (buf : List Byte) : Idx → Res Idx
  | .list es => do
    let x ← parseL dsets share buf
    return .list (es ++ x)
  | .comp es => do
    let x ← parseC dsets share buf
    return .comp (es ++ x)

/-- `fp->idx->search`. -/
def Idx.search : Idx → RReq → Res (List Hit)
  | .list es, q => searchL es q
  | .comp es, q => searchC es q

/-- Range of the file occupied by an internal dataset (`_ld_i`, `_md_i`): address and size. -/
structure Ext where
  addr : Nat
  size : Nat
deriving DecidableEq, Repr

/-- The file as seen by its processes: `H5VL_log_file_t`, src/H5VL_log_file.hpp. `idx` holds, for every
process, the index if `idxvalid`. `nmdset`, `nldset` are the lengths of `mds`, `lds`; `saved` is the
number of metadata datasets recorded in the file attribute (`attbuf[2]`). -/
structure FState where
  cfg : Cfg
  compact : Bool
  mbuf : Option Nat
  dsets : DSets
  ranks : List Rank
  idx : List (Option Idx)
  disk : Mem
  lds : List Ext
  mds : List Ext
  metadirty : Bool
  saved : Nat

/-- A file created by `np` processes, src/H5VL_log_filei.cpp L201-291. -/
def FState.create (cfg : Cfg) (compact : Bool) (mbuf : Option Nat) (np : Nat) (disk : Mem) : FState :=
  { cfg := cfg, compact := compact, mbuf := mbuf, dsets := [], ranks := List.replicate np Rank.init,
    idx := List.replicate np none, disk := disk, lds := [], mds := [], metadirty := false, saved := 0 }

/-! ### Datasets -/

/-- New dataset: its id is `fp->ndset++`, src/H5VL_log_dataset.cpp L54-221. -/
def FState.addDset (d : DInfo) (st : FState) : FState := { st with dsets := st.dsets ++ [some d] }

/-- New current size of a dataset (successful `H5VL_DATASET_SET_EXTENT`), src/H5VL_log_dataset.cpp
L502-569. -/
def FState.setDims (did : Nat) (dims : List Nat) (st : FState) : FState :=
  { st with dsets := st.dsets.modify did (Option.map (fun d => { d with dims := dims })) }

/-! ### Writes -/

/-- `H5VL_log_dataseti_write` on process `r`. -/
def FState.write (r did : Nat) (bs : List Blk) (data : List Byte) (st : FState) : Res FState :=
  match st.ranks[r]?, st.dsets[did]? with
  | some k, some (some d) => do
    let k' ← writeRank st.cfg d did bs data k
    return { st with ranks := st.ranks.set r k' }
  | _, _ => .ub

/-- Requests not flushed yet. -/
def Rank.pending (k : Rank) : List WReq := k.wreqs.drop k.nflushed

/-- Offsets relative to the data of the process, src/H5VL_logi_nb.cpp L663-673. -/
def localOffs : Nat → List WReq → List WReq
  | _, [] => []
  | acc, r :: rs => { r with foff := acc } :: localOffs (acc + r.data.length) rs

/-- `fsize_local`. -/
def Rank.localSize (k : Rank) : Nat := (k.pending.map (fun r => r.data.length)).sum

/-- `MPI_Exscan` with sum: result of every process. -/
def exscan : Nat → List Nat → List Nat
  | _, [] => []
  | acc, n :: ns => acc :: exscan (acc + n) ns

/-- After the loop L663-673: local offsets only. -/
def Rank.setLocal (k : Rank) : Rank := { k with wreqs := k.wreqs.take k.nflushed ++ localOffs 0 k.pending }

/-- `hdr->foff += foff_group + doff; nflushed = wreqs.size ()`, src/H5VL_logi_nb.cpp L817-824. -/
def Rank.flushAt (off : Nat) (k : Rank) : Rank :=
  { k with
    wreqs := k.wreqs.take k.nflushed ++
      (localOffs 0 k.pending).map (fun r => { r with foff := r.foff + off })
    nflushed := k.wreqs.length }

/-- `H5VL_log_nb_flush_write_reqs`, src/H5VL_logi_nb.cpp L592-894; `doff` is the address HDF5 gives to
the new log dataset. Block lengths are stored in `int` (L669): longer blocks are outside the model
(undefined). -/
def FState.flush (doff : Nat) (st : FState) : Res FState :=
  if st.ranks.all (fun k => k.pending.all (fun r => decide (r.data.length < 2 ^ 31))) then
    let sizes := st.ranks.map Rank.localSize
    if sizes.sum = 0 then .ok { st with ranks := st.ranks.map Rank.setLocal }
    else
      let offs := exscan 0 sizes
      .ok { st with
        ranks := List.zipWith (fun k off => k.flushAt (off + doff)) st.ranks offs
        disk := (st.ranks.zip offs).foldl
          (fun d p => writeAt d (p.2 + doff) (p.1.pending.flatMap (fun r => r.data))) st.disk
        lds := st.lds ++ [⟨doff, sizes.sum⟩]
        metadirty := true }
  else .ub

/-- Number of pending requests, src/H5VL_log_filei.cpp L650-667 (maximum over processes: zero iff all
zero). -/
def FState.anyPending (st : FState) : Bool := st.ranks.any (fun k => decide (k.pending ≠ []))

/-- `H5VL_log_filei_flush` without pending reads, src/H5VL_log_filei.cpp L669-687. -/
def FState.fileFlush (doff : Nat) (st : FState) : Res FState :=
  if st.anyPending then st.flush doff else .ok st

/-! ### Metadata flush -/

/-- Sum of the first elements, one value per element (`mdoffs[i + 1] += mdoffs[i]`). -/
def inscan : Nat → List Nat → List Nat
  | _, [] => []
  | acc, n :: ns => (acc + n) :: inscan (acc + n) ns

/-- Metadata of one process without header. -/
def Rank.metaBytes (k : Rank) : List Byte := k.wreqs.flatMap WReq.bytes

/-- `mdsize` of every process: the sum of `meta_size`, plus the section map on process 0,
src/H5VL_log_filei_meta.cpp L100-124. -/
def mdSizes (ranks : List Rank) : List Nat :=
  ranks.mapIdx (fun i k => (if i = 0 then 8 * (ranks.length + 1) else 0) +
    (k.wreqs.map WReq.metaSize).sum)

/-- The buffers written by the processes: process 0 puts the number of sections and the section end
offsets first, src/H5VL_log_filei_meta.cpp L105-117 and L135-167. -/
def mdBufs (ranks : List Rank) : List (List Byte) :=
  ranks.mapIdx (fun i k =>
    (if i = 0 then putWords (ranks.length :: inscan 0 (mdSizes ranks)) else []) ++ k.metaBytes)

/-- `H5VL_log_filei_metaflush`, src/H5VL_log_filei_meta.cpp L49-320; `mdoff` is the address HDF5 gives
to the new metadata dataset. -/
def FState.metaflush (mdoff : Nat) (st : FState) : FState :=
  let total := (mdSizes st.ranks).sum
  let st' :=
    if 8 * (st.ranks.length + 1) < total then
      { st with
        disk := ((mdBufs st.ranks).zip (exscan 0 (mdSizes st.ranks))).foldl
          (fun d p => writeAt d (p.2 + mdoff) p.1) st.disk
        mds := st.mds ++ [⟨mdoff, total⟩] }
    else st
  { st' with
    ranks := st.ranks.map (fun _ => Rank.init)
    idx := st.idx.map (fun _ => none)
    metadirty := false }

/-! ### Loading metadata -/

/-- Read of a range of an internal dataset. -/
def Ext.read (disk : Mem) (m : Ext) (off n : Nat) : Res (List Byte) :=
  if off + n ≤ m.size then .ok (fileBytes disk (m.addr + off) n) else .err

/-- Metadata of one dataset without the section map, src/H5VL_log_filei_meta.cpp L378-401. -/
def Ext.body (disk : Mem) (m : Ext) : Res (List Byte) := do
  let h ← m.read disk 0 8
  let start := 8 * (unle h + 1)
  if m.size < start then .ub else m.read disk start (m.size - start)

/-- Loop of `H5VL_log_filei_metaupdate`, src/H5VL_log_filei_meta.cpp L360-411. -/
def loadAll (dsets : DSets) (share : Bool) (disk : Mem) : List Ext → Idx → Res Idx
  | [], ix => .ok ix
  | m :: ms, ix => do
    let b ← m.body disk
    let ix' ← ix.parse dsets share b
    loadAll dsets share disk ms ix'

/-- `for (i = sec + 1; i < nsec; i++) if (offs[i] - start > mbuf_size) break;`,
src/H5VL_log_filei_meta.cpp L495-497; the list holds `offs[i]`, `offs[i + 1]`, ... The difference is
unsigned. -/
def partEnd (start lim : Nat) : Nat → List Nat → Nat
  | i, [] => i
  | i, o :: os => if o < start ∨ lim < o - start then i else partEnd start lim (i + 1) os

/-- `H5VL_log_filei_metaupdate_part`, src/H5VL_log_filei_meta.cpp L424-535, on section `sec` of the
metadata dataset number `md`: the metadata read and the new position (`none`: `md == -1`). The array
has `nsec` elements and `sec < i ≤ nsec`, so both accesses are in range. -/
def loadPart (disk : Mem) (mds : List Ext) (lim md sec : Nat) :
    Res (List Byte × Option (Nat × Nat)) :=
  match mds[md]? with
  | none => .err
  | some m => do
    let h ← m.read disk 0 8
    let nsec := unle h
    let ob ← m.read disk 8 (8 * nsec)
    let offs := words nsec ob
    if nsec ≤ sec then .err else
    let start := if sec = 0 then 8 * (nsec + 1) else offs.getD (sec - 1) 0
    let i := partEnd start lim (sec + 1) (offs.drop (sec + 1))
    let e := offs.getD (i - 1) 0
    if e < start then .ub else do
    let b ← m.read disk start (e - start)
    let sec' := if nsec ≤ i then 0 else i
    let md' := if nsec ≤ i then md + 1 else md
    return (b, if mds.length ≤ md' then none else some (md', sec'))

/-- The `while (md != -1)` loop of `H5VL_log_read_idx_search`, src/H5VL_logi_nb.cpp L329-338; `fuel`
bounds the number of iterations. -/
def loadLoop (st : FState) (lim : Nat) (qs : List RReq) : Nat → Nat × Nat → Res (List Hit)
  | 0, _ => .ub
  | fuel + 1, pos => do
    let p ← loadPart st.disk st.mds lim pos.1 pos.2
    let ix ← (Idx.empty st.compact).parse st.dsets st.cfg.share p.1
    let hs ← flatMapRes ix.search qs
    match p.2 with
    | none => return hs
    | some pos' => do
      let hs' ← loadLoop st lim qs fuel pos'
      return hs ++ hs'

/-- `H5VL_log_read_idx_search` on process `r` (metadata not dirty), src/H5VL_logi_nb.cpp L315-339. -/
def FState.search (fuel r : Nat) (qs : List RReq) (st : FState) : Res (List Hit × FState) :=
  match st.mbuf with
  | some lim => do
    let hs ← loadLoop st lim qs fuel (0, 0)
    return (hs, st)
  | none =>
    match st.idx[r]? with
    | none => .ub
    | some o => do
      let ix ← (match o with
        | some ix => .ok ix
        | none => loadAll st.dsets st.cfg.share st.disk st.mds (Idx.empty st.compact) : Res Idx)
      let hs ← flatMapRes ix.search qs
      return (hs, { st with idx := st.idx.set r (some ix) })

/-! ### Reads -/

/-- The transfer mode that a read looks at, `H5Pget_dxpl_mpio (dp->fp->dxplid, ..)` (src/H5VL_log_dataseti.cpp L1126): collective
or not.  `fp->dxplid` is a copy of the list with which the file was created or opened (src/H5VL_log_file.cpp L132, L281) and
never changed; H5Fcreate and H5Fopen pass `H5P_DATASET_XFER_DEFAULT`, whose mode is independent.  (Another connector on top
could pass a collective one.)  The list given to H5Dread is not looked at. -/
def fileMode : Bool := false

/-- What happens before a blocking read looks at the log: pending writes are flushed if the transfer
mode stored in the file is collective or there is one process (src/H5VL_log_dataseti.cpp L1118-1129);
then dirty metadata is flushed (src/H5VL_logi_nb.cpp L320-321). -/
def FState.prepare (coll : Bool) (doff mdoff : Nat) (st : FState) : Res FState := do
  let st1 ← (if (coll || decide (st.ranks.length = 1)) && st.anyPending then st.flush doff
    else .ok st : Res FState)
  return if st1.metadirty then st1.metaflush mdoff else st1

/-- What a blocking H5Dread with a transfer list of mode `asked` does before it looks at the log: the mode asked for is not looked
at (src/H5VL_log_dataseti.cpp L1124-1135; `plist_id` is only handed on to the reading of the data, L1138). -/
def FState.dread (_asked : Bool) (doff mdoff : Nat) (st : FState) : Res FState := st.prepare fileMode doff mdoff

/-- Store consecutive bytes. -/
def putBytes (mem : Mem) (a : Nat) (bs : List Byte) : Mem := writeAt mem a bs

/-- Fill loop of one request, src/H5VL_logi_nb.cpp L533-543: `n` elements. -/
def fillLoop (esize : Nat) (fv : List Byte) : Nat → Nat → Mem → Mem
  | 0, _, mem => mem
  | n + 1, a, mem => fillLoop esize fv n (a + esize) (putBytes mem a (fv.take esize))

/-- `rsize` of a request. -/
def RReq.elems (q : RReq) : Nat := (q.bs.map Blk.size).sum

/-- `H5VL_log_nb_flush_read_reqs` before the read proper: buffers of datasets with a fill value are
filled, src/H5VL_logi_nb.cpp L533-543. `fill did` are the bytes at `dip->fill`. -/
def fillReq (fill : Nat → Option (List Byte)) (mem : Mem) (q : RReq) : Mem :=
  match fill q.did with
  | none => mem
  | some fv => fillLoop q.d.esize fv q.elems q.xbuf mem

def prefill (fill : Nat → Option (List Byte)) (qs : List RReq) (mem : Mem) : Mem :=
  qs.foldl (fillReq fill) mem

/-- A read by process `r` of the given requests: a possible final state of its memory. The order in which
`std::sort` leaves equal elements is arbitrary. -/
def FState.reads (fuel r : Nat) (fill : Nat → Option (List Byte)) (qs : List RReq) (mem : Mem)
    (st : FState) (out : Res Mem) : Prop :=
  (∃ raw st' hs, st.search fuel r qs = .ok (raw, st') ∧ SortedHits raw hs ∧
    out = readHits st.disk hs (prefill fill qs mem)) ∨
  (st.search fuel r qs = .err ∧ out = .err) ∨ (st.search fuel r qs = .ub ∧ out = .ub)

/-! ### Close and open -/

/-- `H5VL_log_filei_close` of a file that is not read-only, src/H5VL_log_filei.cpp L735-770. -/
def FState.close (doff mdoff : Nat) (st : FState) : Res FState := do
  let st1 ← st.flush doff
  let st2 := st1.metaflush mdoff
  return { st2 with saved := st2.mds.length }

/-- Open of a file by `np` processes, src/H5VL_log_filei.cpp L109-199 and L293-319: the number of
metadata datasets comes from the file attribute, only datasets that are still linked are found. Used
after a close, or after all processes have died. -/
def FState.reopen (np : Nat) (compact : Bool) (mbuf : Option Nat) (gone : Nat → Bool) (st : FState) :
    FState :=
  { st with
    compact := compact, mbuf := mbuf
    dsets := st.dsets.mapIdx (fun i o => if gone i then none else o)
    ranks := List.replicate np Rank.init
    idx := List.replicate np none
    mds := st.mds.take st.saved
    metadirty := false }

end Verif
