import Verif.Spec.Index
import Verif.Model.File

/-
What the application may expect from a file: an abstract file without metadata, offsets or indexes,
and the histories considered.
-/

namespace Verif.Spec

/-- The abstract file. `done`: writes that have taken effect, in order. `queue`: for every process the
writes not flushed yet. `epoch` and `secs` only serve to state conditions on repeated selections:
`epoch` are, for every process, the flushed writes since the last metadata flush, `secs` the writes
that went into the sections of earlier metadata flushes. -/
structure AFile where
  dsets : DSets
  done : List AW
  queue : List (List AW)
  epoch : List (List AW)
  secs : List (List AW)

/-- A new file. -/
def AFile.create (np : Nat) : AFile :=
  { dsets := [], done := [], queue := List.replicate np [], epoch := List.replicate np [], secs := [] }

def AFile.addDset (d : DInfo) (a : AFile) : AFile := { a with dsets := a.dsets ++ [some d] }

def AFile.setDims (did : Nat) (dims : List Nat) (a : AFile) : AFile :=
  { a with dsets := a.dsets.modify did (Option.map (fun d => { d with dims := dims })) }

/-- Process `r` queues a write. -/
def AFile.write (r : Nat) (w : AW) (a : AFile) : AFile :=
  { a with queue := a.queue.modify r (fun q => q ++ [w]) }

/-- All queued writes take effect: by process, and in program order for each process. -/
def AFile.flush (a : AFile) : AFile :=
  { a with done := a.done ++ a.queue.flatten, queue := a.queue.map (fun _ => []),
           epoch := List.zipWith (· ++ ·) a.epoch a.queue }

/-- End of an epoch. -/
def AFile.metaflush (a : AFile) : AFile :=
  { a with epoch := a.epoch.map (fun _ => []), secs := a.secs ++ a.epoch }

/-- The file is opened by `np` processes after some datasets have been removed. -/
def AFile.reopen (np : Nat) (gone : Nat → Bool) (a : AFile) : AFile :=
  { a with dsets := a.dsets.mapIdx (fun i o => if gone i then none else o),
           queue := List.replicate np [], epoch := List.replicate np [] }

/-- A read first flushes if it is collective or there is a single process. -/
def AFile.prepare (coll : Bool) (a : AFile) : AFile :=
  (if coll || decide (a.queue.length = 1) then a.flush else a).metaflush

/-- A read returns what is queued as well: the transfer mode kept in the file is collective, or there is one process; or
nothing is queued, as after H5Fflush.  See `fileMode` for the mode. -/
def SeesQueue (coll : Bool) (a : AFile) : Prop := coll = true ∨ a.queue.length = 1 ∨ a.queue.flatten = []

/-- Conditions on a single write. -/
structure WriteOK (cfg : Cfg) (w : AW) : Prop where
  sized : w.Sized
  ne : w.data ≠ []
  short : w.data.length < 2 ^ 31
  did : w.did < 2 ^ 31
  sel : SelOK w.d w.bs
  sz : 48 + 8 * w.d.ndim + 16 * (w.d.ndim * w.bs.length) < 2 ^ 31
  enc : cfg.selEncode = true → 1 < w.bs.length → Expressible w
  cnt : ∀ b ∈ w.bs, ∀ n ∈ b.count, n < 2 ^ 31

/-- A write that process `r` may issue: it addresses a dataset that is open with its current extent.
With sharing and selection encoding on, a process does not mix multi-block writes confined to a record
with other multi-block writes in one epoch. -/
structure MayWrite (cfg : Cfg) (a : AFile) (r : Nat) (w : AW) : Prop where
  ok : WriteOK cfg w
  dset : a.dsets[w.did]? = some (some w.d)
  mix : cfg.share = true → cfg.selEncode = true → ∀ p, a.epoch[r]? = some p → ∀ q, a.queue[r]? = some q →
    ∀ w' ∈ p ++ q, 1 < w.bs.length → 1 < w'.bs.length → (Confined w ↔ Confined w')
  num : ∀ p, a.epoch[r]? = some p → ∀ q, a.queue[r]? = some q → (p ++ q).length + 1 < 2 ^ 31

/-- A space of the file beyond everything allocated so far. -/
def Fresh (st : FState) (addr : Nat) : Prop := ∀ e ∈ st.lds ++ st.mds, e.addr + e.size ≤ addr

/-- File offsets are below `2^63`. -/
def Small (st : FState) : Prop := ∀ e ∈ st.lds ++ st.mds, e.addr + e.size < 2 ^ 63

/-- Total size of the data queued in a file. -/
def queued (a : AFile) : Nat := (a.queue.flatten.map (fun w => w.data.length)).sum

/-- Histories: states of the file and of its abstraction reached by any sequence of operations.
Hypotheses about the environment: HDF5 gives every new log or metadata dataset space beyond all space in
use (`Fresh`), and the file stays below `2^63` bytes. A read that does not flush queued writes first is
only considered if nothing is queued or no flushed write awaits its metadata flush. -/
inductive Reach (cfg : Cfg) : FState → AFile → Prop
  | create (compact : Bool) (mbuf : Option Nat) (np : Nat) (disk : Mem) (h : 0 < np) (h2 : np < 2 ^ 31) :
      Reach cfg (FState.create cfg compact mbuf np disk) (AFile.create np)
  | addDset {st a} (d : DInfo) : Reach cfg st a → Reach cfg (st.addDset d) (a.addDset d)
  | setDims {st a} (did : Nat) (dims : List Nat) (d : DInfo) : Reach cfg st a →
      a.dsets[did]? = some (some d) → dims.length = d.ndim →
      Reach cfg (st.setDims did dims) (a.setDims did dims)
  | write {st a st'} (r : Nat) (w : AW) : Reach cfg st a → MayWrite cfg a r w →
      st.write r w.did w.bs w.data = .ok st' → Reach cfg st' (a.write r w)
  | flush {st a st'} (doff : Nat) : Reach cfg st a → Fresh st doff →
      st.fileFlush doff = .ok st' → Small st' → Reach cfg st' a.flush
  | prepare {st a st'} (coll : Bool) (doff mdoff : Nat) : Reach cfg st a → Fresh st doff →
      Fresh st mdoff → doff + queued a ≤ mdoff →
      (coll = true ∨ a.queue.length = 1 ∨ a.epoch.flatten = [] ∨ a.queue.flatten = []) →
      st.prepare coll doff mdoff = .ok st' → Small st' → Reach cfg st' (a.prepare coll)
  | search {st a st' raw} (fuel r : Nat) (qs : List RReq) : Reach cfg st a →
      a.epoch.flatten = [] → st.search fuel r qs = .ok (raw, st') → Reach cfg st' a
  | reopen {st a st'} (doff mdoff np : Nat) (compact : Bool) (mbuf : Option Nat) (gone : Nat → Bool) :
      Reach cfg st a → Fresh st doff → Fresh st mdoff → doff + queued a ≤ mdoff →
      0 < np → np < 2 ^ 31 → st.close doff mdoff = .ok st' → Small st' →
      Reach cfg (st'.reopen np compact mbuf gone) (a.flush.metaflush.reopen np gone)

/-- Conditions on the history under which the log can be read back. With sharing on: no write repeats the
selection of an earlier write of its section to a dataset removed since; and repeated selections have the
same element size (list index), respectively no write confined to a record repeats the exact blocks of an
earlier one (compact index). The compact index handles record numbers below `2^31`. -/
structure Indexable (cfg : Cfg) (compact : Bool) (a : AFile) : Prop where
  link : cfg.share = true → ∀ p ∈ a.secs, p.Pairwise (fun x y => SameSel x y →
    present a.dsets y.did = true → present a.dsets x.did = true)
  sizes : cfg.share = true → compact = false → ∀ p ∈ a.secs, p.Pairwise (fun x y => SameSel x y →
    x.d.esize = y.d.esize ∨ y.bs.length = 1)
  norep : cfg.share = true → compact = true → ∀ p ∈ a.secs, p.Pairwise (fun x y => Confined y →
    x.bs ≠ y.bs)
  heads : compact = true → ∀ p ∈ a.secs, ∀ w ∈ p, ∀ b ∈ w.bs, ∀ n, b.start.head? = some n → n < 2 ^ 31

/-- Read requests executed together by one process: blocks of open datasets, no cell requested twice,
buffers that do not overlap. -/
structure ReqsOK (compact : Bool) (dsets : DSets) (qs : List RReq) : Prop where
  dset : ∀ q ∈ qs, dsets[q.did]? = some (some q.d)
  es : ∀ q ∈ qs, 0 < q.d.esize
  shape : ∀ q ∈ qs, ∀ b ∈ q.bs, b.start.length = q.d.ndim ∧ b.count.length = q.d.ndim
  cnt : ∀ q ∈ qs, ∀ b ∈ q.bs, ∀ n ∈ b.count, n < 2 ^ 31
  head : compact = true → ∀ q ∈ qs, ∀ b ∈ q.bs, ∀ n, b.start.head? = some n → n < 2 ^ 31
  disj : ∀ q ∈ qs, q.bs.Pairwise NoCommon
  disj2 : qs.Pairwise (fun q q' => q.did = q'.did → ∀ b ∈ q.bs, ∀ b' ∈ q'.bs, NoCommon b b')
  bufs : qs.Pairwise (fun q q' => q.xbuf + bufSize q ≤ q'.xbuf ∨ q'.xbuf + bufSize q' ≤ q.xbuf)

/-- Read requests executed together by one process, which may request cells several times: blocks of open
datasets, buffers that do not overlap. -/
structure ReqsWF (compact : Bool) (dsets : DSets) (qs : List RReq) : Prop where
  dset : ∀ q ∈ qs, dsets[q.did]? = some (some q.d)
  es : ∀ q ∈ qs, 0 < q.d.esize
  shape : ∀ q ∈ qs, ∀ b ∈ q.bs, b.start.length = q.d.ndim ∧ b.count.length = q.d.ndim
  cnt : ∀ q ∈ qs, ∀ b ∈ q.bs, ∀ n ∈ b.count, n < 2 ^ 31
  head : compact = true → ∀ q ∈ qs, ∀ b ∈ q.bs, ∀ n, b.start.head? = some n → n < 2 ^ 31
  bufs : qs.Pairwise (fun q q' => q.xbuf + bufSize q ≤ q'.xbuf ∨ q'.xbuf + bufSize q' ≤ q.xbuf)

/-- Offset of section number `i` in a metadata dataset: the sections follow the section map, which has one
word for their number and one for the end of each. -/
def secStart (secs : List (List Byte)) (i : Nat) : Nat :=
  8 * (secs.length + 1) + ((secs.take i).map List.length).sum

/-- A metadata dataset with the given sections: the number of sections, the offset where each ends, the
sections. -/
structure SectionMap (buf : List Byte) (secs : List (List Byte)) : Prop where
  nsec : unle (buf.take 8) = secs.length
  ends : ∀ i < secs.length, unle ((buf.drop (8 * (i + 1))).take 8) = secStart secs (i + 1)
  body : ∀ (i : Nat) (h : i < secs.length), (buf.drop (secStart secs i)).take secs[i].length = secs[i]
  len : buf.length = secStart secs secs.length

/-- What a buffer must hold after a read: byte `k` of the cell, if some write covers it, else of the fill
value, else the byte that was there. -/
def expected (done : List AW) (fill : Nat → Option (List Byte)) (did : Nat) (c : List Nat) (k : Nat)
    (old : Byte) : Byte :=
  match lastByte done did c k with
  | some v => v
  | none => match fill did with
    | some fv => (fv[k]?).getD old
    | none => old

/-- What a read returns: every requested cell has the expected bytes and nothing outside the buffers
changes. -/
structure ReadResult (done : List AW) (fill : Nat → Option (List Byte)) (qs : List RReq) (mem mem' : Mem) :
    Prop where
  val : ∀ q ∈ qs, ∀ i, ∀ hi : i < q.bs.length, ∀ c, InBlk q.bs[i] c → ∀ k, k < q.d.esize →
    mem' (addrOf q i q.bs[i] c k) = expected done fill q.did c k (mem (addrOf q i q.bs[i] c k))
  out : ∀ x, (∀ q ∈ qs, ¬ (q.xbuf ≤ x ∧ x < q.xbuf + bufSize q)) → mem' x = mem x

/-- Process `r` reads `qs` from the file: the read succeeds and returns what the writes `done` left, for
all fill values and previous memory contents. (`fuel` only bounds a loop.) -/
def Returns (st : FState) (r : Nat) (qs : List RReq) (done : List AW) : Prop :=
  ∃ n, ∀ fuel ≥ n, ∀ fill mem, (∃ mem', st.reads fuel r fill qs mem (.ok mem')) ∧
    ∀ out, st.reads fuel r fill qs mem out → ∃ mem', out = .ok mem' ∧ ReadResult done fill qs mem mem'

/-- If the read succeeds, it returns what the writes `done` left. -/
def ReturnsIfOk (st : FState) (r : Nat) (qs : List RReq) (done : List AW) : Prop :=
  ∃ n, ∀ fuel ≥ n, ∀ fill mem mem', st.reads fuel r fill qs mem (.ok mem') → ReadResult done fill qs mem mem'

/-- The displacements of the file view of a read by process `r`, byte by byte, in the order of the type
map. -/
def Displacements (st : FState) (fuel r : Nat) (qs : List RReq) (ds : List Int) : Prop :=
  ∃ raw st' hs g, st.search fuel r qs = .ok (raw, st') ∧ SortedHits raw hs ∧ genSegs (groups hs) = .ok g ∧
    ds = (g.1.flatMap Seg.pairs).map Prod.fst

/-- The writes of single blocks that a write of several blocks stands for: block by block, each with its
part of the data. -/
def splitWrite (w : AW) : List AW :=
  w.bs.mapIdx (fun i b =>
    { w with bs := [b], data := (w.data.drop (dataOffset w.d.esize w.bs i)).take (w.d.esize * b.size) })

/-- Consecutive ranges `(offset, length)` from `s` to `e` without gaps. -/
def Tiles (s : Int) : List (Int × Nat) → Int → Prop
  | [], e => s = e
  | (o, n) :: rs, e => o = s ∧ Tiles (s + n) rs e

/-- The requests that a flush leading from `st` to `st'` had to place: by process, then in the order
they were made. -/
def flushedNow (st st' : FState) : List WReq :=
  (List.zipWith (fun k k' => k'.wreqs.drop k.nflushed) st.ranks st'.ranks).flatten

/-- The pieces of metadata read one after the other with a buffer limit (the loop of
src/H5VL_logi_nb.cpp L329-338 without the search). -/
def loadTrace (disk : Mem) (mds : List Ext) (lim : Nat) : Nat → Nat × Nat → Res (List (List Byte))
  | 0, _ => .ub
  | fuel + 1, pos => (loadPart disk mds lim pos.1 pos.2).bind (fun p =>
      match p.2 with
      | none => .ok [p.1]
      | some pos' => (loadTrace disk mds lim fuel pos').bind (fun bs => .ok (p.1 :: bs)))

end Verif.Spec
