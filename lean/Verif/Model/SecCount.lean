import Verif.Model.Dump

/-
The number of sections at the beginning of a metadata dataset as the code computes with it: a word of 64 bits, signed in comparisons
(`MPI_Offset`), and multiplied by 8 without sign (`sizeof`), so that the three highest bits are lost.  `Ext.body`, `loadPart` and
`dumpMd` are the same for numbers below 2^61 - 1 (C103_usual).
-/

namespace Verif

/-- A word of an array that was read; behind its end is other memory. -/
def wordAt (offs : List Nat) (i : Nat) : Res Nat := (offs[i]?).elim .ub .ok

/-- The bytes that `H5VL_log_filei_metaupdate` reads (src/H5VL_log_filei_meta.cpp L375-399). -/
def Ext.bodyW (disk : Mem) (m : Ext) : Res (List Byte) := do
  let h ← m.read disk 0 8
  if unle h = 2 ^ 63 - 1 then .ub else
  let start := 8 * (unle h + 1) % 2 ^ 64
  if m.size < start then .ub else m.read disk start (m.size - start)

/-- `for (i = sec + 1; i < nsec; i++) if (offs[i] - start > mbuf_size) break;` (L501-503); the list holds `offs[i]`, `offs[i + 1]`, …,
as far as they were allocated. -/
def scanW (start lim n : Nat) : Nat → List Nat → Res Nat
  | i, [] => if i < n then .ub else .ok i
  | i, o :: os => if i < n then (if o < start ∨ lim < o - start then .ok i else scanW start lim n (i + 1) os) else .ok i

/-- `H5VL_log_filei_metaupdate_part` (L424-535). -/
def loadPartW (disk : Mem) (mds : List Ext) (lim md sec : Nat) : Res (List Byte × Option (Nat × Nat)) :=
  match mds[md]? with
  | none => .err
  | some m => do
    let h ← m.read disk 0 8
    let n := unle h
    let ob ← m.read disk 8 (8 * n % 2 ^ 64)
    let offs := words (n % 2 ^ 61) ob
    if 2 ^ 63 ≤ n ∨ n ≤ sec then .err else do
    let start ← (if sec = 0 then (if n = 2 ^ 63 - 1 then .ub else .ok (8 * (n + 1) % 2 ^ 64)) else wordAt offs (sec - 1) : Res Nat)
    let i ← scanW start lim n (sec + 1) (offs.drop (sec + 1))
    let e ← wordAt offs (i - 1)
    if e < start then .ub else do
    let b ← m.read disk start (e - start)
    let sec' := if n ≤ i then 0 else i
    let md' := if n ≤ i then md + 1 else md
    return (b, if mds.length ≤ md' then none else some (md', sec'))

/-- `h5ldump_mdset` (h5ldump_meta.cpp L54-97): the loops run while `i < nsec`, the first of them (L75-77) over the table. -/
def dumpMdW (T : DSets) (disk : Mem) (withData : Bool) (junk : Ext → Nat → Nat) (m : Ext) : Res (List (List PEnt)) := do
  let h ← m.read disk 0 8
  let n := unle h
  if n = 2 ^ 63 - 1 then .ub else do
  let ob ← m.read disk 8 (8 * n % 2 ^ 64)
  let ends := words (n % 2 ^ 61) ob
  if 2 ^ 63 ≤ n then .ok [] else
  if ends.length < n then .ub else
  mapRes (fun b => if b.2 < b.1 then .err else do
      let x ← m.read disk b.1 (b.2 - b.1)
      dumpSec T disk withData x)
    (dumpBounds ((List.range (ends.length + 1)).map (junk m)) ends)

end Verif
