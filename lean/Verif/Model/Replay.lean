import Verif.Model.File
import Verif.Model.Tools
import Verif.Model.Filter

/-
h5lreplay end to end: a closed log file is replayed by `np` processes to a file with plain HDF5 datasets.
utils/h5lreplay/h5lreplay.cpp L132-317, h5lreplay_meta.cpp L31-195, h5lreplay_data.cpp L35-171.

Not modelled: subfiling, the copy of names and attributes, conversion of the data type.  Filters: only the treatment of the
buffer of one entry (`replayUnfilter`).  The read of the data
(h5lreplay_data.cpp L87-118) sorts the entries by offset and reads all with one file view; the model reads entry by entry.
-/

namespace Verif

/-- Datasets as h5lreplay knows them: the table has `ndset` elements, zero until the dataset is visited
(h5lreplay.cpp L204-208). -/
def replayDsets (dsets : DSets) : DSets := dsets.map (fun o => some (o.getD ⟨[], [], 0⟩))

/-- The end offsets in the section map of a metadata dataset. -/
def Ext.ends (disk : Mem) (m : Ext) : Res (List Nat) := do
  let h ← m.read disk 0 8
  let ob ← m.read disk 8 (8 * unle h)
  return words (unle h) ob

/-- Entries that a process takes from its part (h5lreplay_meta.cpp L148-189).  Without sharing it takes all of them
(`replayPlain`, C35_terminates).  A stride of 0 divides by zero. -/
def replayTake {α : Type} (share : Bool) (p : ReplayPart) (es : List α) : Res (List α) :=
  if es = [] then .ok [] else
  if p.stride = 0 then .ub else
  .ok (if share then replayShare p.stride p.off es 0 else es)

/-- Part of one metadata dataset parsed by process `rank` (h5lreplay_meta.cpp L66-192). -/
def replayMd (dsets : DSets) (share : Bool) (disk : Mem) (np rank : Nat) (m : Ext) : Res (List MEnt) := do
  let ends ← m.ends disk
  if ends = [] then .ok [] else do
  let p ← replayPart ends np rank
  if p.start < 0 ∨ p.stop < p.start then .err else do
  let b ← m.read disk p.start.toNat (p.stop - p.start).toNat
  let es ← parseL (replayDsets dsets) share b
  replayTake share p es

/-- One `H5Dwrite` of h5lreplay: one block of one dataset. -/
structure RWrite where
  did : Nat
  esize : Nat
  blk : Blk
  data : List Byte
deriving DecidableEq, Repr

/-- A hyperslab of one block that HDF5 accepts: not empty, inside the extent. -/
def fitsIn : List Nat → List Nat → List Nat → Bool
  | [], [], [] => true
  | s :: ss, c :: cs, d :: ds => decide (0 < c) && decide (s + c ≤ d) && fitsIn ss cs ds
  | _, _, _ => false

/-- The write of one block from the buffer of its entry (h5lreplay_data.cpp L149-165).  A block that is not accepted is an
error; bytes that were not read are undefined. -/
def replayBlk (d : DInfo) (did : Nat) (buf : List Byte) (s : MSel) : Res (List RWrite) :=
  let n := d.esize * prod s.count
  if buf.length < s.doff + n then .ub else
  if fitsIn s.start s.count d.dims then .ok [⟨did, d.esize, ⟨s.start, s.count⟩, (buf.drop s.doff).take n⟩] else .err

/-- The writes of one entry: its bytes are read from the file (h5lreplay_data.cpp L53-118), the offset of each block in the
buffer is computed from the sizes of the blocks before it.  Datasets that were not found have the identifier 0, with which
`H5Dwrite` fails. -/
def replayEnt (dsets : DSets) (disk : Mem) (e : MEnt) : Res (List RWrite) :=
  if e.hdr.foff < 0 ∨ e.hdr.fsize < 0 ∨ 2 ^ 31 ≤ e.hdr.fsize ∨ e.hdr.did < 0 then .ub else
  match dsets[e.hdr.did.toNat]? with
  | some (some d) =>
    flatMapRes (replayBlk d e.hdr.did.toNat (fileBytes disk e.hdr.foff.toNat e.hdr.fsize.toNat))
      (blkDoffs d.esize 0 (e.sels.map (fun s => ⟨s.start, s.count⟩)))
  | some none => if e.sels = [] then .ub else .err
  | none => .ub

/-- The buffer of an entry of a filtered dataset after the unfilter step, from which it is written
(h5lreplay_data.cpp L120-132): the result of `H5VL_logi_unfilter` is a new buffer, to which `memcpy (buf, req.bufs[0], csize)`
copies the bytes read from the file.  The buffer of the request has at least `stored.length` bytes. -/
def replayUnfilter (z : Zlib) (pl : List FilterId) (cap : Nat) (stored : List Byte) : Res (List Byte) :=
  if pl = [] then .ok stored else do
  let out ← unfilter z pl stored
  if max cap stored.length < out.length then .ub else .ok stored

/-- All writes of process `rank`, in order: metadata datasets one after the other are parsed to one list per dataset
(`reqs[did]`); then the datasets are written one after the other. -/
def FState.replayProc (np rank : Nat) (st : FState) : Res (List RWrite) := do
  let es ← flatMapRes (replayMd st.dsets st.cfg.share st.disk np rank) (st.mds.take st.saved)
  flatMapRes (replayEnt st.dsets st.disk)
    ((List.range st.dsets.length).flatMap (fun (i : Nat) => es.filter (fun e => decide (e.hdr.did = (i : Int)))))

/-- Contents of the output file: dataset, cell, byte of the element; `none` if never written. -/
abbrev HData := Nat → List Nat → Nat → Option Byte

/-- `H5Dwrite` of one block (contract of HDF5): the elements of the buffer go to the cells of the block in row-major order. -/
def hwrite (c : HData) (w : RWrite) : HData := fun did x k =>
  if did = w.did ∧ k < w.esize then
    ((boxIdx w.blk.count).find? (fun y => decide (adds w.blk.start y = x))).elim (c did x k)
      (fun y => w.data[w.esize * lin w.blk.count y + k]?)
  else c did x k

/-- The list is an interleaving of the lists of the processes. -/
inductive Interleaved {α : Type} : List (List α) → List α → Prop
  | done {ls : List (List α)} : (∀ l ∈ ls, l = []) → Interleaved ls []
  | step {ls : List (List α)} (i : Nat) (x : α) (xs l : List α) : ls[i]? = some (x :: xs) →
      Interleaved (ls.set i xs) l → Interleaved ls (x :: l)

/-- A possible result of replaying a closed file with `np` processes.  The processes write independently, in any
interleaving. -/
def FState.replay (np : Nat) (st : FState) (out : Res HData) : Prop :=
  (∃ ls l, ls.length = np ∧ (∀ r (h : r < ls.length), st.replayProc np r = .ok ls[r]) ∧ Interleaved ls l ∧
    out = .ok (l.foldl hwrite (fun _ _ _ => none))) ∨
  (∃ r < np, st.replayProc np r = .err ∧ out = .err) ∨
  (∃ r < np, st.replayProc np r = .ub ∧ out = .ub)

end Verif
