import Verif.Model.Bytes

/-
The utilities: sections read by h5lreplay (utils/h5lreplay/h5lreplay_meta.cpp L31-195) and h5ldump
(utils/h5ldump/h5ldump_meta.cpp L27-98), and the lookup of log datasets (src/H5VL_log_dataseti.cpp L150-155).

A metadata dataset starts with the number of sections and the end offset of each section (8 bytes each); `ends` is the list of
the end offsets.
-/

namespace Verif

/-- Word `i` of the section map: the number of sections, then the end offsets. -/
def mapWord (ends : List Nat) (i : Nat) : Res Nat :=
  if i = 0 then .ok ends.length else (ends[i - 1]?).elim .err .ok

/-! ### h5lreplay -/

/-- What one process replays: bytes `[start, stop)` of the dataset, of whose entries it takes those `j` with
`(j - off) % stride == 0`. -/
structure ReplayPart where
  start : Int
  stop : Int
  stride : Int
  off : Int
deriving DecidableEq, Repr

/-- The two `int` members that receive an 8-byte word: the members of `meta_sec` (h5lreplay_meta.hpp L17-23) are consecutive
`int`s, and `H5Dread` stores 8 bytes at `&sec.start` and at `&sec.end` (L98, L131).  (To the C++ standard this is out of
bounds of the member; the model follows the layout of the structure.) -/
def low32 (w : Nat) : Int := signed 4 (w % 2 ^ 32)
def high32 (w : Nat) : Int := signed 4 (w / 2 ^ 32 % 2 ^ 32)

/-- The share of process `rank` of `np` (L90-133).  `start` is in bytes throughout, also in the computation of `first` and
`last`.  The read of `sec.end` comes last and replaces `sec.off`, so that `rank - first` (L122) is lost. -/
def replayPart (ends : List Nat) (np rank : Nat) : Res ReplayPart :=
  let nsec := ends.length
  let start := rank * nsec / np * 8
  (mapWord ends (start / 8)).bind fun w =>
  let sStart := if start = 0 then low32 (8 * (nsec + 1)) else low32 w
  if np ≤ nsec then
    (mapWord ends ((rank + 1) * nsec / np)).bind fun e => .ok ⟨sStart, low32 e, 1, high32 e⟩
  else
    let first := np * start / nsec + (if np * start % nsec = 0 then 1 else 0)
    let last : Int := ((np * (start + 1) / nsec : Nat) : Int) - (if np * (start + 1) % nsec = 0 then 1 else 0)
    (mapWord ends ((start + 8) / 8)).bind fun e => .ok ⟨sStart, low32 e, last - first + 1, high32 e⟩

/-- Entries inserted by the loop for files with shared metadata (L150-176), from entry number `j`. -/
def replayShare {α : Type} (stride off : Int) : List α → Nat → List α
  | [], _ => []
  | x :: xs, j => (if ((j : Int) - off).tmod stride = 0 then [x] else []) ++ replayShare stride off xs (j + 1)

/-- Entries inserted by the loop for other files (L177-189), in at most `fuel` iterations; `none` if that is not enough.  The
position advances only with the entries taken. -/
def replayPlain {α : Type} (stride off : Int) : Nat → List α → Nat → Option (List α)
  | _, [], _ => some []
  | 0, _ :: _, _ => none
  | fuel + 1, x :: xs, j =>
    if ((j : Int) - off).tmod stride = 0 then (replayPlain stride off fuel xs (j + 1)).map (x :: ·)
    else replayPlain stride off fuel (x :: xs) (j + 1)

/-! ### h5ldump -/

/-- `H5Dread` with `H5S_ALL` as memory dataspace and a selection in the file: HDF5 uses the dataspace of the file, with its
selection, for the memory too.  Words `start`, `start + 1`, … of the file therefore go to the same places of the buffer. -/
def readSame (buf : List Nat) (start : Nat) (ws : List Nat) : List Nat := buf.take start ++ ws ++ buf.drop (start + ws.length)

/-- `offs` in `h5ldump_mdset` (L63-72): `junk` are the `nsec + 1` words as `malloc` left them; the end offsets are words 1 to
`nsec` of the dataset. -/
def dumpOffs (junk : List Nat) (ends : List Nat) : List Nat := (readSame junk 1 ends).set 0 (8 + 8 * ends.length)

/-- Bounds of the sections printed by `h5ldump_mdset` (L82-97). -/
def dumpBounds (junk : List Nat) (ends : List Nat) : List (Nat × Nat) := (dumpOffs junk ends).zip ((dumpOffs junk ends).drop 1)

/-! ### Log datasets -/

/-- `foff2logidx`. -/
def foff2logidx (foff : Nat) (doffs : List Nat) : Option Nat :=
  ((List.range doffs.length).reverse).find? (fun i => decide (doffs.getD i 0 ≤ foff))

end Verif
