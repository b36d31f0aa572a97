import Verif.Model.Replay

/-
The number of sections as h5lreplay computes with it (`h5lreplay_parse_meta`, utils/h5lreplay/h5lreplay_meta.cpp L72-189): a signed word
of 64 bits; products of processes and sections are signed, sizes in bytes are not.  The words of the table are read one by one.
-/

namespace Verif

/-- One word of the dataset, from byte `off` on (L89-95, L123-128). -/
def Ext.wordFrom (disk : Mem) (m : Ext) (off : Nat) : Res Nat := (m.read disk off 8).bind fun b => .ok (unle b)

/-- Where the first section of a process starts (L96-99). -/
def startW (n start w : Nat) : Res Int :=
  if start = 0 then (if n = 2 ^ 63 - 1 then .ub else .ok (low32 (8 * (n + 1) % 2 ^ 64))) else .ok (low32 w)

/-- Where the last section of a process ends, and the stride (L100-128). -/
def endW (disk : Mem) (m : Ext) (np rank n start : Nat) (sStart : Int) : Res ReplayPart :=
  if np ≤ n then
    if 2 ^ 63 ≤ (rank + 1) * n then .ub else
    (m.wordFrom disk ((rank + 1) * n / np * 8 % 2 ^ 64)).bind fun e => .ok ⟨sStart, low32 e, 1, high32 e⟩
  else
    let first := np * start / n + (if np * start % n = 0 then 1 else 0)
    let last : Int := ((np * (start + 1) / n : Nat) : Int) - (if np * (start + 1) % n = 0 then 1 else 0)
    (m.wordFrom disk (start + 8)).bind fun e => .ok ⟨sStart, low32 e, last - first + 1, high32 e⟩

/-- The share of process `rank` of `np` (L82-128), for a positive number `n`. -/
def replayPartW (disk : Mem) (m : Ext) (np rank n : Nat) : Res ReplayPart :=
  if 2 ^ 63 ≤ rank * n then .ub else
  (m.wordFrom disk (rank * n / np * 8 % 2 ^ 64)).bind fun w =>
  (startW n (rank * n / np * 8 % 2 ^ 64) w).bind fun s =>
  endW disk m np rank n (rank * n / np * 8 % 2 ^ 64) s

/-- What the process takes (L72-189). -/
def replayMdW (dsets : DSets) (share : Bool) (disk : Mem) (np rank : Nat) (m : Ext) : Res (List MEnt) := do
  let n ← m.wordFrom disk 0
  if n = 0 ∨ 2 ^ 63 ≤ n then .ok [] else do
  let p ← replayPartW disk m np rank n
  if p.start < 0 ∨ p.stop < p.start then .err else do
  let b ← m.read disk p.start.toNat (p.stop - p.start).toNat
  let es ← parseL (replayDsets dsets) share b
  replayTake share p es

end Verif
