import Verif.Model.Replay
import Verif.Model.Subfile

/-
h5ldump: utils/h5ldump/h5ldump.cpp L33-301, h5ldump_visit.cpp L27-121, h5ldump_meta.cpp L27-300.

The output is a structure, not text: for every metadata dataset its sections, for every section its entries, for every entry
the number of the dataset, the place of the data and the blocks with their data.  How the data of a block is made to text is
`shownBytes` and `hexAfter`.  Not modelled: filters (the buffer is unfiltered in place, L222-231), `malloc (0)` that
returns NULL, the lines with the properties of the file.
-/

namespace Verif

/-! ### Datasets -/

/-- An object of the file, as `H5Ovisit3` passes it.  `dset`: `none` for groups and types, `some none` for a dataset without the
attributes of the connector. -/
structure VObj where
  path : Name
  dset : Option (Option (Nat × DInfo))
deriving DecidableEq, Repr

/-- Names skipped by `h5ldump_visit_handler` (h5ldump_visit.cpp L74-77). -/
def dumpSkips (s : Name) : Bool :=
  (decide (s.head? = some '_') && decide (s.tail.head? ≠ some '_')) || decide (s.head? = some '/') || decide (s.head? = some '.')

/-- `h5ldump_visit_handler` (h5ldump_visit.cpp L61-121).  The maximal extent is not read. -/
def dumpVisit1 (T : DSets) (o : VObj) : Res DSets :=
  if dumpSkips o.path then .ok T else
  match o.dset with
  | none => .ok T
  | some none => .err
  | some (some (id, d)) => if id < T.length then .ok (T.set id (some { d with mdims := [] })) else .ub

/-- `h5ldump_visit` (h5ldump_visit.cpp L27-59): the table of the `ndset` datasets, zero where none was found. -/
def dumpVisit (ndset : Nat) (objs : List VObj) : Res DSets :=
  objs.foldl (fun r o => r.bind (fun T => dumpVisit1 T o)) (.ok (List.replicate ndset (some ⟨[], [], 0⟩)))

/-! ### Entries -/

/-- A printed block. -/
structure PBlk where
  doff : Nat
  blk : Blk
  data : Option (List Byte)
deriving DecidableEq, Repr

/-- A printed entry. -/
structure PEnt where
  did : Int
  foff : Int
  fsize : Int
  flags : Flags
  blks : List PBlk
deriving DecidableEq, Repr

/-- Size of the buffer of an entry (h5ldump_meta.cpp L200-209): the last block and its offset, *both* times the size of an
element. -/
def dumpBuf (d : DInfo) (sels : List MSel) : Nat :=
  (match sels.getLast? with | some s => prod s.count + s.doff | none => 1) * d.esize

/-- One block (h5ldump_meta.cpp L268-285).  `buf` is what has been read; bytes behind it are undefined. -/
def dumpBlk (d : DInfo) (buf : List Byte) (s : MSel) : Res PBlk :=
  let n := prod s.count * d.esize
  if buf.length < s.doff + n then .ub else .ok ⟨s.doff, ⟨s.start, s.count⟩, some ((buf.drop s.doff).take n)⟩

/-- One entry (h5ldump_meta.cpp L199-287).  `withData`: without option `-H`.  The count of the read is an `int`. -/
def dumpEnt (T : DSets) (disk : Mem) (withData : Bool) (e : MEnt) : Res PEnt :=
  if e.hdr.did < 0 then .ub else
  match T[e.hdr.did.toNat]? with
  | some (some d) =>
    if withData then
      if (dumpBuf d e.sels : Int) < e.hdr.fsize then .err
      else if e.hdr.foff < 0 ∨ e.hdr.fsize < 0 ∨ 2 ^ 31 ≤ e.hdr.fsize then .ub
      else do
        let bs ← mapRes (dumpBlk d (fileBytes disk e.hdr.foff.toNat e.hdr.fsize.toNat)) e.sels
        return ⟨e.hdr.did, e.hdr.foff, e.hdr.fsize, e.hdr.flags, bs⟩
    else .ok ⟨e.hdr.did, e.hdr.foff, e.hdr.fsize, e.hdr.flags, e.sels.map (fun s => ⟨s.doff, ⟨s.start, s.count⟩, none⟩)⟩
  | _ => .ub

/-- `h5ldump_mdsec` (h5ldump_meta.cpp L165-300).  References are followed wherever the flag is set, whatever the configuration
of the file. -/
def dumpSec (T : DSets) (disk : Mem) (withData : Bool) (b : List Byte) : Res (List PEnt) := do
  let es ← parseL T true b
  mapRes (dumpEnt T disk withData) es

/-- `h5ldump_mdset` (h5ldump_meta.cpp L27-99).  `junk`: the memory in which the table of offsets is allocated. -/
def dumpMd (T : DSets) (disk : Mem) (withData : Bool) (junk : Ext → Nat → Nat) (m : Ext) : Res (List (List PEnt)) := do
  let ends ← m.ends disk
  mapRes (fun b => if b.2 < b.1 then .err else do
      let x ← m.read disk b.1 (b.2 - b.1)
      dumpSec T disk withData x)
    (dumpBounds ((List.range (ends.length + 1)).map (junk m)) ends)

/-- `h5ldump_file` without subfiles, after the visit of the datasets (h5ldump.cpp L187-301). -/
def FState.dump (st : FState) (objs : List VObj) (withData : Bool) (junk : Ext → Nat → Nat) :
    Res (List (List (List PEnt))) := do
  let T ← dumpVisit st.dsets.length objs
  mapRes (dumpMd T st.disk withData junk) (st.mds.take st.saved)

/-! ### Text -/

/-- Classes of data types that `h5ldump_print_data` distinguishes. -/
inductive TClass
  | int
  | float
  | string
  | other
deriving DecidableEq, Repr

/-- Size and number of the items printed for `n` elements of `esize` bytes (`h5ldump_print_data`, h5ldump_meta.cpp L115-163). -/
def shownItems (c : TClass) (esize n : Nat) : Nat × Nat :=
  match c with
  | .int => if esize ∈ [1, 2, 4, 8] then (esize, n) else (1, n * esize)
  | .float => if 4 < esize then (8, n) else (4, n)
  | .string => (1, n)
  | .other => (1, n * esize)

/-- The items printed for a block: slices of the buffer from the start of the block. -/
def shownBytes (c : TClass) (esize n : Nat) (buf : List Byte) : List (List Byte) :=
  (List.range (shownItems c esize n).2).map
    (fun i => (buf.drop (i * (shownItems c esize n).1)).take (shownItems c esize n).1)

/-- `h5ldump_print_data_core (void *, …)` sets `std::hex` on the output (L109) and nothing resets it: base 16 for all later
integers. -/
def hexAfter (hex : Bool) (c : TClass) (esize n : Nat) : Bool :=
  hex || (match c with
    | .int => decide (esize ∉ [1, 2, 4, 8]) && decide (0 < n * esize)
    | .other => decide (0 < n * esize)
    | _ => false)

/-! ### Kind of a file -/

inductive Kind
  | hdf5
  | logVol
  | nc4
  | classic
  | offset64
  | data64
  | unknown
  /-- the empty string -/
  | nothing
deriving DecidableEq, Repr

def hdf5Sig : List Byte := [137, 72, 68, 70, 13, 10, 26, 10]
def ncSig : List Byte := [67, 68, 70]

/-- `get_file_signature` (h5ldump.cpp L33-90) of a file with these first bytes; `islog`, `isnc`: it has the attribute of the
connector, the one of NetCDF-4. -/
def fileKind (first : List Byte) (islog isnc : Bool) : Kind :=
  let sig := (first ++ List.replicate 8 0).take 8
  if sig = hdf5Sig then if islog then .logVol else if isnc then .nc4 else .hdf5
  else if sig.take 3 = ncSig then
    if sig[3]? = some 5 then .classic else if sig[3]? = some 2 then .offset64 else if sig[3]? = some 1 then .data64 else .nothing
  else .unknown

end Verif
