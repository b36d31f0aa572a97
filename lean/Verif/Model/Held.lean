/-
What writes, reads, flushes and metadata updates acquire, keep and release, with calls to HDF5, MPI and zlib that may fail at any
point: `H5VL_log_dataset_write_1`, `H5VL_log_dataset_read_1` (src/H5VL_log_dataset.cpp L285-379), `H5VL_log_dataseti_write`,
`H5VL_log_dataseti_read` (src/H5VL_log_dataseti.cpp L787-1141), `H5VL_log_read_idx_search`, `H5VL_log_nb_perform_read`,
`H5VL_log_nb_flush_read_reqs`, `H5VL_log_nb_flush_write_reqs` (src/H5VL_logi_nb.cpp L315-894), `H5VL_log_filei_metaflush`,
`H5VL_log_filei_metaupdate`, `H5VL_log_filei_metaupdate_part` (src/H5VL_log_filei_meta.cpp L49-535), `H5VL_log_filei_flush`,
`H5VL_log_filei_close` (src/H5VL_log_filei.cpp L669-842), the compact index (src/H5VL_logi_idx_compact.cpp L70-180).

Every resource is a token with a number of its own.  A local variable that holds one is an entry of the current frame;
`H5VL_logi_err_finally` releases the variables it captures when the function ends.  Values and contents are left out.

Simplified: memory is available; a failing close releases nothing; what `H5VL_logi_filter` and the constructors lose inside
themselves when they fail, the buffers for filtered blocks (released by `finally`), passthru reads, aligned flushes, subfiles and
metadata entries of unlinked datasets are left out; a released HDF5 id is not given out again.
-/

namespace Verif.Held

/-- What a token stands for. -/
inductive Kind where
  /-- `dsid`, `dsel`, `lib_state` -/
  | space | sel | lib
  /-- request of a write, merged request, key in `wreq_hash`, data buffer, packing type, background buffer, result of a filter -/
  | wreq | mreq | key | xbuf | ptype | bg | fbuf
  /-- request of a read with its datatypes -/
  | rreq | dtype | mtype
  /-- of a flush of data -/
  | mlens | moffs | wtype | ldsid | dcpl | dxpl | ldp | mbuff | mspace
  /-- of a flush of metadata -/
  | offs | lens | mdoffs | mmtype | mdsid | mdp
  /-- of an update of the index: `mmsid`, `buf`, `offs` of the partial update, entry of the compact index -/
  | mmsid | buf | secs | ent
  /-- of a read: `ftype`, `mtype`, `tbuf` -/
  | ftype | rtype | tbuf
deriving DecidableEq, Repr

structure Tok where
  kind : Kind
  n : Nat
deriving DecidableEq, Repr

/-- A request in `wreqs` with the data buffers of its own. -/
structure WQ where
  req : Tok
  bufs : List Tok
deriving DecidableEq, Repr

/-- An entry of `mreqs`: dataset, number of writes, request. -/
structure MQ where
  did : Nat
  n : Nat
  w : WQ
deriving DecidableEq, Repr

/-- A read request; `fill` if its dataset has a fill value. -/
structure RQ where
  req : Tok
  sel : Tok
  xbuf : Option Tok
  ptype : Option Tok
  dtype : Option Tok
  mtype : Option Tok
  fill : Bool
deriving DecidableEq, Repr

/-- The fields of the file object: `wreqs` from `nflushed` on and before, `mreqs`, keys of `wreq_hash`, `rreqs`, the number of
entries of each metadata dataset, `metadirty`, `idxvalid`, the entries of the compact index. -/
structure File where
  wq : List WQ
  done : List WQ
  mq : List MQ
  keys : List Tok
  rq : List RQ
  md : List Nat
  dirty : Bool
  valid : Bool
  idx : List Tok
deriving DecidableEq, Repr

structure St where
  held : List Tok
  next : Nat
  /-- the variables of the current function that hold something -/
  loc : List Tok
  file : File
deriving DecidableEq, Repr

inductive Out (α : Type) where
  | ok (a : α)
  | thrown
  | ub
deriving DecidableEq, Repr

/-- Programs: all possible outcomes. -/
def M (α : Type) := St → List (Out α × St)

def M.andThen {α β : Type} (m : M α) (f : α → M β) : M β := fun s =>
  (m s).flatMap fun o => match o.1 with
    | .ok a => f a o.2
    | .thrown => [(.thrown, o.2)]
    | .ub => [(.ub, o.2)]

instance : Monad M where
  pure a := fun s => [(.ok a, s)]
  bind := M.andThen

/-- A variable of kind `k` gets a new token; what it held before stays held, unreachable. -/
def St.take (s : St) (k : Kind) : St :=
  { s with held := ⟨k, s.next⟩ :: s.held, next := s.next + 1, loc := ⟨k, s.next⟩ :: s.loc.eraseP (·.kind = k) }

/-- Something that other processes or HDF5 decide. -/
def pick : M Bool := fun s => [(.ok true, s), (.ok false, s)]

def getF : M File := fun s => [(.ok s.file, s)]

def setF (f : File → File) : M Unit := fun s => [(.ok (), { s with file := f s.file })]

/-- Release: undefined if it is not held. -/
def put (t : Tok) : M Unit := fun s =>
  if t ∈ s.held then [(.ok (), { s with held := s.held.erase t })] else [(.ub, s)]

def putAll : List Tok → M Unit
  | [] => pure ()
  | t :: ts => do put t; putAll ts

/-- Access: undefined if it is not held. -/
def use (t : Tok) : M Unit := fun s => if t ∈ s.held then [(.ok (), s)] else [(.ub, s)]

def useAll : List Tok → M Unit
  | [] => pure ()
  | t :: ts => do use t; useAll ts

/-- The variable hands over what it holds: undefined if it holds nothing. -/
def move (k : Kind) : M Tok := fun s =>
  match s.loc.find? (·.kind = k) with
  | some t => [(.ok t, { s with loc := s.loc.eraseP (·.kind = k) })]
  | none => [(.ub, s)]

def moveIf (k : Kind) : M (Option Tok) := fun s =>
  match s.loc.find? (·.kind = k) with
  | some t => [(.ok (some t), { s with loc := s.loc.eraseP (·.kind = k) })]
  | none => [(.ok none, s)]

/-- Simple steps. -/
inductive Step where
  /-- a call that acquires, whose failure raises an exception -/
  | acq (k : Kind)
  /-- an allocation -/
  | mal (k : Kind)
  /-- a call that acquires, whose failure is not noticed -/
  | acqU (k : Kind)
  /-- a call that may fail with an exception -/
  | call
  /-- release of what the variable holds -/
  | rel (k : Kind)
  /-- release, if it holds something -/
  | relIf (k : Kind)
deriving DecidableEq, Repr

def step : Step → M Unit
  | .acq k => fun s => [(.ok (), s.take k), (.thrown, s)]
  | .mal k => fun s => [(.ok (), s.take k)]
  | .acqU k => fun s => [(.ok (), s.take k), (.ok (), s)]
  | .call => fun s => [(.ok (), s), (.thrown, s)]
  | .rel k => do let t ← move k; put t
  | .relIf k => do
    match ← moveIf k with
    | some t => put t
    | none => pure ()

def run : List Step → M Unit
  | [] => pure ()
  | c :: cs => do step c; run cs

/-- A function whose `finally` releases the variables `ks`. -/
def frame {α : Type} (ks : List Kind) (m : M α) : M α := fun s =>
  (m { s with loc := [] }).flatMap fun o => (run (ks.map .relIf) o.2).map fun e =>
    match e.1 with
    | .ok _ => (o.1, { e.2 with loc := s.loc })
    | .thrown => (.thrown, { e.2 with loc := s.loc })
    | .ub => (.ub, { e.2 with loc := s.loc })

/-- `catch`: an exception becomes a negative result. -/
def caught (m : M Unit) : M Bool := fun s =>
  (m s).map fun o => match o.1 with
    | .ok _ => (.ok true, o.2)
    | .thrown => (.ok false, o.2)
    | .ub => (.ub, o.2)

/-- Settings: passthru, compact index, limited metadata buffer, rank 0 of its group, merging of metadata, another option of
`config`. -/
structure Conf where
  passthru : Bool
  compact : Bool
  limited : Bool
  rank0 : Bool
  merge : Bool
  other : Bool
deriving DecidableEq, Repr

/-! ### Writes -/

/-- What a write depends on: the file space is `H5S_ALL`; nothing is selected; its selection is new and goes to `wreq_hash`; it needs
a buffer; it packs; it converts compounds; the dataset has filters; the number of the dataset. -/
structure WArgs where
  all : Bool
  empty : Bool
  key : Bool
  own : Bool
  pack : Bool
  bg : Bool
  filter : Bool
  did : Nat
deriving DecidableEq, Repr

/-- The request is built if `config ^ H5VL_FILEI_CONFIG_METADATA_MERGE` (L835). -/
def Conf.req (c : Conf) : Bool := !(c.merge && !c.other)

/-- The request (L841-923): the constructor, then compression and resizing. -/
def buildReq (c : Conf) (p : WArgs) : M Unit :=
  if c.req then do
    run [.acq .wreq]
    if p.key then do
      run [.mal .key]
      let t ← move .key
      setF fun f => { f with keys := f.keys ++ [t] }
    run [.call]
  else pure ()

/-- The data buffer (L927-996). -/
def bufSteps (p : WArgs) : List Step :=
  .call :: ((if p.own then .acq .xbuf :: ((if p.pack then [.acq .ptype] else []) ++ (if p.bg then [.mal .bg, .rel .bg] else [])) else []) ++
    (if p.filter then .acq .fbuf :: ((if p.own then [.rel .xbuf] else []) ++ [.acq .xbuf, .rel .fbuf]) else []))

/-- The request joins the queue (L1013-1017). -/
def enqueue : M Unit := do
  let r ← move .wreq
  let x ← moveIf .xbuf
  setF fun f => { f with wq := f.wq ++ [⟨r, x.toList⟩] }

/-- The merged request of the dataset, built if there is none (L1004-1009). -/
def append (did : Nat) : M Unit := do
  let f ← getF
  if f.mq.any (·.did = did) then pure () else do
    run [.acq .mreq]
    let m ← move .mreq
    setF fun f => { f with mq := f.mq ++ [⟨did, 0, ⟨m, []⟩⟩] }
  run [.call]
  let x ← moveIf .xbuf
  setF fun f => { f with mq := f.mq.map fun m =>
    if m.did = did then { m with n := m.n + 1, w := { m.w with bufs := m.w.bufs ++ x.toList } } else m }

/-- `H5VL_log_dataseti_write` (L787-1022). -/
def dsetiWrite (c : Conf) (p : WArgs) : M Unit :=
  frame [.ptype, .lib] do
    run [.call]
    if p.empty then pure () else do
      run [.call, .acq .lib, .call]
      buildReq c p
      run (bufSteps p)
      if c.merge then append p.did else enqueue

/-- `H5VL_log_dataset_write_1` (src/H5VL_log_dataset.cpp L337-379). -/
def write (c : Conf) (p : WArgs) : M Bool :=
  caught <| frame [.sel, .space] do
    run ((if p.all then [.acq .space] else []) ++ [.acq .sel])
    dsetiWrite c p

/-! ### Flushes -/

/-- `H5VLdataset_create`, the offset, and the reopening if it is undefined (`undef`), src/H5VL_logi_nb.cpp L699-752,
src/H5VL_log_filei_meta.cpp L185-220; `k` is the dataset. -/
def reopen (k : Kind) (undef : Bool) : List Step :=
  .call :: (if undef then [.call, .rel k, .call, .acq k, .call] else [])

/-- The write through the under VOL (src/H5VL_logi_nb.cpp L777-806, src/H5VL_log_filei_meta.cpp L245-274) or with MPI. -/
def transfer (c : Conf) : List Step :=
  if c.passthru then [.call, .call, .mal .mbuff, .acqU .mspace, .call, .rel .mbuff, .relIf .mspace] else [.call]

/-- The merged requests with writes join the queue (src/H5VL_logi_nb.cpp L636-644). -/
def takeMerged (f : File) : File :=
  { f with wq := f.wq ++ (f.mq.filter (0 < ·.n)).map (·.w), mq := f.mq.filter (¬ 0 < ·.n) }

/-- `H5VL_log_nb_flush_write_reqs` (L592-894): `more` if other processes of the group have data, `else_` if only those of other
groups do. -/
def flushWrites (c : Conf) (more else_ : Bool) : M Unit :=
  frame [.wtype, .ldsid, .dcpl, .dxpl, .mlens, .moffs] do
    setF takeMerged
    let f ← getF
    run ((if f.wq = [] then [] else .mal .mlens :: .mal .moffs :: (if c.passthru then [] else [.acq .wtype])) ++ [.call])
    if f.wq ≠ [] ∨ more then do
      let undef ← pick
      let again ← pick
      run ([.acq .ldsid, .acq .dcpl, .acq .dxpl, .acq .ldp] ++ reopen .ldp undef ++
        (if undef && again then [.relIf .wtype] else []) ++ transfer c ++ [.call, .rel .ldp])
      putAll (f.wq.flatMap (·.bufs))
      setF fun f => { f with wq := [], done := f.done ++ f.wq, dirty := true }
    else if else_ then setF fun f => { f with dirty := true } else pure ()

/-- `H5VL_log_filei_metaflush` (src/H5VL_log_filei_meta.cpp L49-320) with `n` entries of other processes. -/
def metaflush (c : Conf) (n : Nat) : M Unit :=
  frame [.offs, .lens, .mdoffs, .mdsid, .dcpl, .dxpl, .mmtype] do
    let f ← getF
    let cnt := f.done.length + f.wq.length
    run ([.mal .offs, .mal .lens] ++ (if c.rank0 then [.mal .mdoffs] else []) ++
      (if !c.passthru && (c.rank0 || cnt ≠ 0) then [.acq .mmtype] else []) ++ [.call])
    if 0 < n + cnt then do
      run [.acq .mdsid, .acq .dcpl, .acq .dxpl, .acq .mdp]
      setF fun f => { f with md := f.md ++ [n + cnt] }
      let undef ← pick
      run (reopen .mdp undef ++ transfer c ++ [.call, .rel .mdp])
    else pure ()
    putAll (f.done.map (·.req) ++ f.wq.map (·.req))
    putAll f.keys
    setF fun f => { f with done := [], wq := [], keys := [], dirty := false, valid := false }

/-! ### The index -/

/-- New entries of the compact index. -/
def entries : Nat → M (List Tok)
  | 0 => pure []
  | n + 1 => do
    run [.mal .ent]
    let t ← move .ent
    let ts ← entries n
    pure (t :: ts)

/-- `parse_block` with `n` entries. -/
def parse (c : Conf) (n : Nat) : M Unit :=
  if c.compact then do
    let ts ← entries n
    setF fun f => { f with idx := f.idx ++ ts }
  else pure ()

/-- `idx->clear ()`: the compact index forgets its entries (src/H5VL_logi_idx_compact.cpp L87-89). -/
def clearIdx : M Unit := setF fun f => { f with idx := [] }

/-- The loop of `H5VL_log_filei_metaupdate` (L363-411): `mdsid` is overwritten. -/
def loadAll (c : Conf) : List Nat → M Unit
  | [] => pure ()
  | n :: ns => do
    run [.acq .mdp, .acq .mdsid, .call, .mal .buf, .call, .call, .rel .mdp]
    parse c n
    run [.call, .rel .buf]
    loadAll c ns

/-- `H5VL_log_filei_metaupdate` (L326-416). -/
def metaupdate (c : Conf) (n : Nat) : M Unit :=
  frame [.mdsid, .mmsid, .buf] do
    run [.acqU .mmsid]
    let f ← getF
    if f.dirty then metaflush c n else pure ()
    clearIdx
    let f ← getF
    loadAll c f.md
    setF fun f => { f with valid := true }

/-- `H5VL_log_filei_metaupdate_part` (L424-535) for a part with `m` entries. -/
def metapart (c : Conf) (m : Nat) : M Unit :=
  frame [.mdsid, .mmsid, .buf] do
    run [.acqU .mmsid]
    clearIdx
    run [.acq .mdp, .acq .mdsid, .call, .mal .secs, .call, .call, .mal .buf, .call, .call, .rel .mdp]
    parse c m
    run [.call]

def metaparts (c : Conf) : List Nat → M Unit
  | [] => pure ()
  | m :: ms => do metapart c m; metaparts c ms

/-- What a read meets: entries of other processes not yet flushed, the parts in which a limited buffer takes the metadata. -/
structure Env where
  n : Nat
  parts : List Nat
deriving DecidableEq, Repr

/-- `H5VL_log_read_idx_search` (src/H5VL_logi_nb.cpp L315-339). -/
def search (c : Conf) (e : Env) : M Unit := do
  let f ← getF
  if f.dirty then metaflush c e.n else pure ()
  if c.limited then metaparts c e.parts else do
    let f ← getF
    if f.valid then pure () else metaupdate c e.n

/-! ### Reads -/

/-- Post-processing of a request (L490-517): an id that has been closed makes `H5Tconvert` fail; `MPI_Type_free` and `bfree` need what
they release. -/
def post (r : RQ) : M Unit := do
  match r.dtype, r.mtype with
  | some d, some m => fun s =>
    if d ∈ s.held then (do run [.call]; put d; put m : M Unit) s else [(.thrown, s)]
  | _, _ => pure ()
  match r.xbuf with
  | some x => do
    use x
    match r.ptype with
    | some p => put p
    | none => pure ()
    put x
  | none => pure ()

def posts : List RQ → M Unit
  | [] => pure ()
  | r :: rs => do post r; posts rs

/-- `H5VL_log_nb_perform_read` (L341-520). -/
def performRead (c : Conf) (e : Env) (rs : List RQ) : M Unit :=
  frame [.tbuf, .rtype, .ftype] do
    search c e
    let hit ← pick
    if !c.passthru && hit then do
      run [.acq .ftype, .acq .rtype, .call]
      useAll (rs.filterMap (·.xbuf))
      run [.call]
    else run [.call]
    let filtered ← pick
    run (if filtered then [.mal .tbuf, .call] else [])
    posts rs

/-- `H5VL_log_nb_flush_read_reqs` (L522-590) without subfiles. -/
def flushReads (c : Conf) (e : Env) (rs : List RQ) : M Unit := do
  useAll ((rs.filter (·.fill)).filterMap (·.xbuf))
  performRead c e rs
  putAll (rs.flatMap fun r => [r.req, r.sel])

/-- What a read depends on: as for a write; `queue` if the transfer list says buffered; `fill` if there is a fill value; `coll` if
the pending writes are flushed first; `more`, `else_` as for a flush. -/
structure RArgs where
  all : Bool
  empty : Bool
  own : Bool
  pack : Bool
  conv : Bool
  queue : Bool
  fill : Bool
  coll : Bool
  more : Bool
  else_ : Bool
  env : Env
deriving DecidableEq, Repr

/-- `H5VL_log_filei_get_num_pending_writes` (src/H5VL_log_filei.cpp L657-667). -/
def File.pending (f : File) : Bool := f.wq ≠ [] || f.mq.any (0 < ·.n)

/-- `H5VL_log_dataseti_read` (src/H5VL_log_dataseti.cpp L1034-1141). -/
def dsetiRead (c : Conf) (p : RArgs) (sel : Tok) : M Unit :=
  frame [.lib] do
    if p.empty then pure () else do
      run ([.call, .acq .lib, .call, .call, .mal .rreq, .call, .call] ++
        (if p.own then .acq .xbuf :: ((if p.pack then [.acq .ptype] else []) ++ (if p.conv then [.acq .dtype, .acq .mtype] else [])) else []))
      if p.queue then do
        let r ← move .rreq
        let x ← moveIf .xbuf
        let t ← moveIf .ptype
        let d ← moveIf .dtype
        let m ← moveIf .mtype
        setF fun f => { f with rq := f.rq ++ [⟨r, sel, x, t, d, m, p.fill⟩] }
      else do
        run [.call]
        let f ← getF
        if p.coll && (f.pending || p.more || p.else_) then flushWrites c p.more p.else_ else pure ()
        let r ← move .rreq
        let x ← moveIf .xbuf
        let t ← moveIf .ptype
        let d ← moveIf .dtype
        let m ← moveIf .mtype
        flushReads c p.env [⟨r, sel, x, t, d, m, p.fill⟩]

/-- `H5VL_log_dataset_read_1` (src/H5VL_log_dataset.cpp L285-325). -/
def read (c : Conf) (p : RArgs) : M Bool :=
  caught <| frame [.space] do
    run ((if p.all then [.acq .space] else []) ++ [.acq .sel])
    let sel ← move .sel
    dsetiRead c p sel

/-! ### H5Fflush and H5Fclose -/

/-- What a flush meets: `more`, `else_` as above; `reads` if another process has queued reads. -/
structure FArgs where
  more : Bool
  else_ : Bool
  reads : Bool
  env : Env
deriving DecidableEq, Repr

/-- `H5VL_log_file_specific` (src/H5VL_log_file.cpp L444-450), `H5VL_log_filei_flush` (src/H5VL_log_filei.cpp L669-687). -/
def flush (c : Conf) (p : FArgs) : M Bool :=
  caught <| frame [.lib] do
    run [.acq .lib, .call]
    let f ← getF
    if f.pending || p.more || p.else_ then flushWrites c p.more p.else_ else pure ()
    let f ← getF
    if f.rq ≠ [] ∨ p.reads then do
      flushReads c p.env f.rq
      setF fun f => { f with rq := [] }
    else pure ()

/-- `H5VL_log_filei_close` (L710-842) of a file that may be written to: `delete fp` destroys the table of selections; what the other lists
point to is forgotten.  (The pointer to the index is not used again.) -/
def close (c : Conf) (p : FArgs) : M Bool :=
  caught <| frame [.lib] do
    run [.acq .lib, .call]
    flushWrites c p.more p.else_
    metaflush c p.env.n
    run [.call, .call, .call, .call]
    let f ← getF
    putAll f.idx
    setF fun f => { f with idx := [] }
    run [.call]
    putAll f.keys
    setF fun _ => ⟨[], [], [], [], [], [], false, false, []⟩

/-- A file that has just been opened, with the given numbers of entries in its metadata datasets. -/
def File.opened (md : List Nat) : File := ⟨[], [], [], [], [], md, false, false, []⟩

def St.opened (md : List Nat) : St := ⟨[], 0, [], File.opened md⟩

inductive Call where
  | write (p : WArgs)
  | read (p : RArgs)
  | flush (p : FArgs)
deriving DecidableEq, Repr

def call (c : Conf) : Call → M Bool
  | .write p => write c p
  | .read p => read c p
  | .flush p => flush c p

end Verif.Held
