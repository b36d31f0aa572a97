import Verif.Model.Meta

/-
The two metadata indexes: parsing of a metadata block and search.
src/H5VL_logi_idx_list.cpp, src/H5VL_logi_idx_compact.cpp, src/H5VL_logi_meta.cpp L26-83.
-/

namespace Verif

/-- `fp->dsets_info`: `none` marks a dataset that could not be opened (unlinked). -/
abbrev DSets := List (Option DInfo)

/-- `std::map<char *, T>::operator[]` lookup; the key is the offset in the block being parsed. -/
def cacheGet {α : Type} (cache : List (Int × α)) (k : Int) : Option α :=
  (cache.find? (fun p => p.1 == k)).map Prod.snd

/-- Signed 8-byte load. -/
def rdI64 (buf : List Byte) (off : Nat) : Res Int := do
  let b ← rd buf off 8
  return unsle b

/-- Unsigned 8-byte load. -/
def rdU64 (buf : List Byte) (off : Nat) : Res Nat := do
  let b ← rd buf off 8
  return unle b

/-- Record number and relative offset of a reference entry: src/H5VL_logi_meta.cpp L44-58,
src/H5VL_logi_idx_compact.cpp L132-145. -/
def rdRef (buf : List Byte) (ent : Nat) (h : Hdr) : Res (Option Nat × Int) := do
  let recnum ← (if h.flags.recd then do
      let r ← rdU64 buf (ent + hdrSize)
      return some r else return none : Res (Option Nat))
  let roff ← rdI64 buf (ent + hdrSize + if h.flags.recd then 8 else 0)
  return (recnum, roff)

/-- Overwrite of the first coordinate for record references, src/H5VL_logi_meta.cpp L61-66. -/
def setRec (recnum : Option Nat) (s : MSel) : MSel :=
  match recnum with
  | some r => { s with start := r :: s.start.drop 1, count := 1 :: s.count.drop 1 }
  | none => s

/-- `H5VL_logi_metaentry_ref_decode`, src/H5VL_logi_meta.cpp L26-83. A reference to an entry that is
not in the cache yields an empty vector whose last element is then accessed: undefined. -/
def refDecode (d : DInfo) (buf : List Byte) (ent : Nat) (cache : List (Int × List MSel)) :
    Res MEnt := do
  let h ← rdHdr buf ent
  if h.metaSize ≤ 0 then .err else
  let rr ← rdRef buf ent h
  let sels := ((cacheGet cache (ent + rr.2)).getD []).map (setRec rr.1)
  let ds ← decDsize d d.ndim sels
  return { hdr := h, sels := sels, dsize := ds }

/-- `fp->dsets_info[did]`; an id out of range is undefined. -/
def dsetOf (dsets : DSets) (did : Int) : Res (Option DInfo) :=
  if did < 0 then .ub else
  match dsets[did.toNat]? with
  | none => .ub
  | some o => .ok o

/-- Step to the next entry, `bufp += hdr_tmp->meta_size`; a step that does not advance never ends
(or leaves the buffer): undefined. -/
def advance (off : Nat) (h : Hdr) : Res Nat :=
  if h.metaSize ≤ 0 then .ub else .ok (off + h.metaSize.toNat)

/-- One iteration of `H5VL_logi_array_idx_t::parse_block`, src/H5VL_logi_idx_list.cpp L41-93.
Returns the inserted entry, if any, and the new cache. -/
def stepL (dsets : DSets) (share : Bool) (buf : List Byte) (off : Nat) (h : Hdr)
    (cache : List (Int × List MSel)) : Res (List MEnt × List (Int × List MSel)) := do
  match ← dsetOf dsets h.did with
  | none => return ([], cache)
  | some d =>
    if share && h.flags.ref then
      let e ← refDecode d buf off cache
      return ([e], cache)
    else
      let e ← metaDecode d buf off
      return ([e], ((off : Int), e.sels) :: cache)

/-- The `while` loop of both `parse_block` functions: `step` handles the entry at an offset and
returns the inserted entries and the new cache. `fuel` bounds the number of entries; every iteration
advances, so `buf.length` suffices. -/
def parseLoop {ε κ : Type} (step : Nat → Hdr → List (Int × κ) → Res (List ε × List (Int × κ)))
    (buf : List Byte) : Nat → Nat → List (Int × κ) → Res (List ε)
  | 0, off, _ => if off < buf.length then .ub else .ok []
  | fuel + 1, off, cache =>
    if off < buf.length then do
      let h ← rdHdr buf off
      let r ← step off h cache
      let off' ← advance off h
      let es ← parseLoop step buf fuel off' r.2
      return r.1 ++ es
    else .ok []

/-- `H5VL_logi_array_idx_t::parse_block`, src/H5VL_logi_idx_list.cpp L41-93. The result lists the
inserted entries in order (`idxs[did].push_back`). -/
def parseL (dsets : DSets) (share : Bool) (buf : List Byte) : Res (List MEnt) :=
  parseLoop (stepL dsets share buf) buf buf.length 0 []

/-- Entry of the compact index, src/H5VL_logi_idx.hpp `H5VL_logi_compact_idx_entry_t`.
`blocks` are the number of blocks and the flat array of the entry itself, or of the entry it
references (`nsel == -1`); `none` is a null pointer. Referenced entries are never modified, so the
array is copied instead of pointed to. -/
structure CEnt where
  did : Int
  recd : Int            -- `hssize_t rec`, -1 for non-record
  blocks : Option (Nat × List Nat)
  foff : Int
  fsize : Int
  dsize : Nat
deriving DecidableEq, Repr

/-- Constructor from a decoded entry, src/H5VL_logi_idx_compact.cpp L38-72. -/
def mkCEnt (e : MEnt) : Res CEnt := do
  let k := if e.hdr.flags.recd then 1 else 0
  let recd ← (if e.hdr.flags.recd then
      match e.sels with
      | [] => .ub
      | s :: _ => match s.start with
        | [] => .ub
        | r :: _ => .ok (signed 8 r)
    else .ok (-1) : Res Int)
  return { did := e.hdr.did, recd := recd,
           blocks := some (e.sels.length,
             e.sels.flatMap (fun s => s.start.drop k ++ s.count.drop k)),
           foff := e.hdr.foff, fsize := e.hdr.fsize, dsize := e.dsize }

/-- One iteration of `H5VL_logi_compact_idx_t::parse_block`, src/H5VL_logi_idx_compact.cpp
L108-189. -/
def stepC (dsets : DSets) (share : Bool) (buf : List Byte) (off : Nat) (h : Hdr)
    (cache : List (Int × (Nat × List Nat))) :
    Res (List CEnt × List (Int × (Nat × List Nat))) := do
  match ← dsetOf dsets h.did with
  | none => return ([], cache)
  | some d =>
    if share && h.flags.ref then
      let rr ← rdRef buf off h
      return ([{ did := h.did, recd := (match rr.1 with | some r => signed 8 r | none => -1),
                 blocks := cacheGet cache (off + rr.2),
                 foff := h.foff, fsize := h.fsize, dsize := 0 }], cache)
    else
      let e ← metaDecode d buf off
      let c ← mkCEnt e
      match c.blocks with
      | none => return ([c], cache)
      | some b => return ([c], ((off : Int), b) :: cache)

/-- `H5VL_logi_compact_idx_t::parse_block`, src/H5VL_logi_idx_compact.cpp L108-189. -/
def parseC (dsets : DSets) (share : Bool) (buf : List Byte) : Res (List CEnt) :=
  parseLoop (stepC dsets share buf) buf buf.length 0 []

/-! ### Search -/

/-- `intersect`, src/H5VL_logi_idx_list.cpp L95-107 and src/H5VL_logi_idx_compact.cpp L191-203
(identical). 64-bit overflow of `start + count` is not modelled. -/
def intersect : List Nat → List Nat → List Nat → List Nat → Option (List Nat × List Nat)
  | sa :: sas, ca :: cas, sb :: sbs, cb :: cbs =>
    let so := max sa sb
    let e := min (sa + ca) (sb + cb)
    if e ≤ so then none
    else (intersect sas cas sbs cbs).map (fun r => (so :: r.1, (e - so) :: r.2))
  | _, _, _, _ => some ([], [])

/-- A read request, src/H5VL_logi_nb.hpp `H5VL_log_rreq_t` (did, info, sels, esize, xbuf).
`xbuf` is an address. -/
structure RReq where
  did : Nat
  d : DInfo
  bs : List Blk
  xbuf : Nat
deriving DecidableEq, Repr

/-- A search result, src/H5VL_logi_idx.hpp `H5VL_log_idx_search_ret_t`. -/
structure Hit where
  d : DInfo
  dsize : List Nat
  dstart : List Nat
  msize : List Nat
  mstart : List Nat
  count : List Nat
  xsize : Nat
  doff : Nat
  xbuf : Nat
  foff : Int
  fsize : Int
deriving DecidableEq, Repr

/-- The coordinate arrays of a search result are arrays of `int`. A value that does not fit is
outside the model (reported as undefined). -/
def fitsInt (l : List Nat) : Bool := l.all (fun x => decide (x < 2 ^ 31))

/-- Pointwise difference. -/
def subs : List Nat → List Nat → List Nat := List.zipWith (· - ·)

/-- Construction of a search result from an intersection, src/H5VL_logi_idx_list.cpp L121-135,
src/H5VL_logi_idx_compact.cpp L239-253 and L273-287. -/
def mkHit (q : RReq) (rb : Blk) (soff : Nat) (foff fsize : Int) (xsize : Nat) (start count : List Nat)
    (doff : Nat) (os oc : List Nat) : Res Hit :=
  let h : Hit :=
    { d := q.d, dsize := count, dstart := subs os start, msize := rb.count,
      mstart := subs os rb.start, count := oc, xsize := xsize, doff := doff,
      xbuf := q.xbuf + soff, foff := foff, fsize := fsize }
  if fitsInt h.dsize && fitsInt h.dstart && fitsInt h.msize && fitsInt h.mstart && fitsInt h.count
  then .ok h else .ub

/-- Concatenation of partial results, in order. -/
def flatMapRes {α β : Type} (f : α → Res (List β)) : List α → Res (List β)
  | [] => .ok []
  | a :: as => do
    let b ← f a
    let bs ← flatMapRes f as
    return b ++ bs

/-- Request blocks with the offset of their part of the buffer: `soff += get_sel_size (i) * esize`. -/
def withOffs (esize : Nat) : Nat → List Blk → List (Blk × Nat)
  | _, [] => []
  | acc, b :: bs => (b, acc) :: withOffs esize (acc + b.size * esize) bs

/-- Inner loops of `H5VL_logi_array_idx_t::search` for one request block and one entry,
src/H5VL_logi_idx_list.cpp L119-137. -/
def searchEntL (q : RReq) (rb : Blk) (soff : Nat) (e : MEnt) : Res (List Hit) :=
  flatMapRes (fun (s : MSel) =>
    match intersect s.start s.count rb.start rb.count with
    | none => .ok []
    | some (os, oc) => do
      let h ← mkHit q rb soff e.hdr.foff e.hdr.fsize e.dsize s.start s.count s.doff os oc
      return [h]) e.sels

/-- `H5VL_logi_array_idx_t::search`, src/H5VL_logi_idx_list.cpp L109-141. The per-dataset vectors
`idxs[did]` are the sublists of the insertion sequence. -/
def searchL (idx : List MEnt) (q : RReq) : Res (List Hit) :=
  flatMapRes (fun (p : Blk × Nat) =>
    flatMapRes (searchEntL q p.1 p.2) (idx.filter (fun e => e.hdr.did == (q.did : Int))))
    (withOffs q.d.esize 0 q.bs)

/-- Blocks of a flat array, `k` coordinates each: `start = count + k; count = start + k`. Reading
past the end of the array is undefined. -/
def cblocks (k : Nat) : Nat → List Nat → Res (List Blk)
  | 0, _ => .ok []
  | n + 1, ws =>
    if ws.length < 2 * k then .ub else do
      let r ← cblocks k n (ws.drop (2 * k))
      return { start := ws.take k, count := (ws.drop k).take k } :: r

/-- Two's complement truncation to `int`. -/
def i32 (x : Int) : Int := signed 4 (x % (2 ^ 32 : Int)).toNat

/-- Offsets of blocks computed on the fly (`doff += esize * prod count`). -/
def blkDoffs (esize : Nat) : Nat → List Blk → List MSel
  | _, [] => []
  | acc, b :: bs =>
    { start := b.start, count := b.count, doff := acc } :: blkDoffs esize (acc + esize * prod b.count) bs

/-- Loop body of `H5VL_logi_compact_idx_t::search` for one request block and one entry,
src/H5VL_logi_idx_compact.cpp L221-291. -/
def searchEntC (q : RReq) (rb : Blk) (soff : Nat) (e : CEnt) : Res (List Hit) :=
  match e.blocks with
  | none => .ub
  | some (nsel, ws) =>
    if 0 ≤ e.recd then
      match rb.start, rb.count with
      | rs :: rss, rc :: rcs =>
        let m0 := i32 (e.recd - rs)
        if m0 < 0 ∨ m0 ≥ i32 rc then .ok [] else do
        let bl ← cblocks (q.d.ndim - 1) nsel ws
        flatMapRes (fun (s : MSel) =>
          match intersect s.start s.count rss rcs with
          | none => .ok []
          | some (os, oc) => do
            let h ← mkHit q { start := rss, count := rcs } soff e.foff e.fsize e.dsize
              s.start s.count s.doff os oc
            if fitsInt [rc] then
              return [{ h with dstart := 0 :: h.dstart, dsize := 1 :: h.dsize,
                               mstart := m0.toNat :: h.mstart, msize := rc :: h.msize,
                               count := 1 :: h.count }]
            else .ub)
          (blkDoffs q.d.esize 0 bl)
      | _, _ => .ub
    else do
      let bl ← cblocks q.d.ndim nsel ws
      flatMapRes (fun (s : MSel) =>
        match intersect s.start s.count rb.start rb.count with
        | none => .ok []
        | some (os, oc) => do
          let h ← mkHit q rb soff e.foff e.fsize e.dsize s.start s.count s.doff os oc
          return [h])
        (blkDoffs q.d.esize 0 bl)

/-- `H5VL_logi_compact_idx_t::search`, src/H5VL_logi_idx_compact.cpp L205-292 (the dataset of a
request is open, so its `dsets_info` entry is not null). -/
def searchC (idx : List CEnt) (q : RReq) : Res (List Hit) :=
  flatMapRes (fun (p : Blk × Nat) =>
    flatMapRes (searchEntC q p.1 p.2) (idx.filter (fun e => e.did == (q.did : Int))))
    (withOffs q.d.esize 0 q.bs)

end Verif
