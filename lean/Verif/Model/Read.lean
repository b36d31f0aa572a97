import Verif.Model.Index
import Verif.Model.Sort

/-
From search results to memory: src/H5VL_log_dataseti.cpp L30-42 and L444-677 (`gen_rtypes`),
src/H5VL_logi_nb.cpp L341-520 (`perform_read`), unfiltered datasets, no type conversion.
-/

namespace Verif

/-- Process memory and file contents, by address. -/
abbrev Mem := Nat → Byte

/-- Row-major index of a position in an array of the given shape. -/
def lin : List Nat → List Nat → Nat
  | _ :: ns, x :: xs => x * prod ns + lin ns xs
  | _, _ => 0

/-- All positions of an array of the given shape, in row-major order. -/
def boxIdx : List Nat → List (List Nat)
  | [] => [[]]
  | n :: ns => (List.range n).flatMap (fun x => (boxIdx ns).map (fun xs => x :: xs))

/-- Pointwise sum. -/
def adds : List Nat → List Nat → List Nat := List.zipWith (· + ·)

/-- Sort key `foff + doff`. -/
def Hit.key (h : Hit) : Int := h.foff + h.doff

/-- Lexicographic comparison, src/H5VL_logi_idx.cpp L26-31. -/
def lexLt : List Nat → List Nat → Bool
  | a :: as, b :: bs => if a < b then true else if b < a then false else lexLt as bs
  | _, _ => false

/-- `operator<`, src/H5VL_logi_idx.cpp L18-34. -/
def hitLt (a b : Hit) : Bool :=
  if a.key < b.key then true else if b.key < a.key then false else lexLt a.dstart b.dstart

/-- `operator>`, src/H5VL_logi_idx.cpp L37-55; both branches of the code test the same condition, so
the loop ends with `true` as soon as one dimension ends later. -/
def endGt : List Nat → List Nat → List Nat → List Nat → Bool
  | s :: ss, c :: cs, s' :: ss', c' :: cs' => if s' + c' < s + c then true else endGt ss cs ss' cs'
  | _, _, _, _ => false

def hitGt (a b : Hit) : Bool := endGt a.dstart a.count b.dstart b.count

/-- `interleve`, src/H5VL_log_dataseti.cpp L30-42: the last position of the first block does not
precede the first position of the second one. -/
def interleve : List Nat → List Nat → List Nat → Bool
  | sa :: sas, ca :: cas, sb :: sbs =>
    if sa + ca < sb + 1 then false else if sb + 1 < sa + ca then true else interleve sas cas sbs
  | _, _, _ => true

/-- Possible results of `std::sort` with `operator<`. -/
def SortedHits (hs out : List Hit) : Prop :=
  out.Perm hs ∧ out.Pairwise (fun a b => hitLt b a = false)

/-- The loop that marks group ends, src/H5VL_log_dataseti.cpp L499-517: `cur` is the group being
built, `j` the block remembered by the code. -/
def groupLoop (cur : List Hit) (j : Hit) : List Hit → List (List Hit)
  | [] => [cur]
  | h :: hs =>
    if decide (j.foff = h.foff) && decide (j.doff = h.doff) && interleve j.dstart j.count h.dstart then
      groupLoop (cur ++ [h]) (if hitGt h j then h else j) hs
    else cur :: groupLoop [h] h hs

def groups : List Hit → List (List Hit)
  | [] => []
  | h :: hs => groupLoop [h] h hs

/-- Argument checks of `MPI_Type_create_subarray`. -/
def subarrayOK : List Nat → List Nat → List Nat → Bool
  | n :: ns, c :: cs, s :: ss => decide (1 ≤ c) && decide (s + c ≤ n) && subarrayOK ns cs ss
  | _, _, _ => true

/-- A block that is alone in its group: a subarray of the data block and one of the memory block,
src/H5VL_log_dataseti.cpp L565-607. One piece per element, in typemap order. Without dimensions:
one element. -/
def hitElems (h : Hit) : Res (List Seg) :=
  if h.d.ndim = 0 then .ok [{ f := h.key, m := h.xbuf, len := h.d.esize }]
  else if subarrayOK h.dsize h.count h.dstart && subarrayOK h.msize h.count h.mstart then
    .ok ((boxIdx h.count).map (fun x =>
      { f := h.key + (h.d.esize * lin h.dsize (adds h.dstart x) : Nat),
        m := h.xbuf + h.d.esize * lin h.msize (adds h.mstart x), len := h.d.esize }))
  else .err

/-- Breakdown of an interleaving block in rows, src/H5VL_log_dataseti.cpp L611-645. The strides
`fssize`/`mssize` and the counter `ctr` amount to row-major indices. With `ndim == 0` the code writes
`fssize[-1]`. Row lengths are stored as `int`. -/
def hitRows (h : Hit) : Res (List Seg) :=
  match h.count.getLast? with
  | none => .ub
  | some n =>
    if n * h.d.esize < 2 ^ 31 then
      .ok ((boxIdx h.count.dropLast).map (fun x =>
        { f := h.key + (h.d.esize * lin h.dsize (adds h.dstart (x ++ [0])) : Nat),
          m := h.xbuf + h.d.esize * lin h.msize (adds h.mstart (x ++ [0])), len := n * h.d.esize }))
    else .ub

/-- `H5VL_log_copy_ctx`. -/
structure Copy where
  dst : Nat
  src : Int
  size : Nat
deriving DecidableEq, Repr

/-- Overlap of piece `k` with a later piece `l`, src/H5VL_log_dataseti.cpp L655-669. -/
def trimOne (k l : Seg) : Seg × List Copy :=
  if l.f < k.f + k.len then
    let size := min l.len (k.f - l.f + k.len).toNat
    ({ f := l.f + size, m := l.m + size, len := l.len - size },
      [{ dst := l.m, src := k.m - size + k.len, size := size }])
  else (l, [])

/-- The double loop, src/H5VL_log_dataseti.cpp L652-672. -/
def trim : List Seg → List Seg × List Copy
  | [] => ([], [])
  | k :: ls =>
    let r := ls.map (trimOne k)
    let t := trim (r.map Prod.fst)
    (k :: t.1, r.flatMap Prod.snd ++ t.2)
termination_by l => l.length

/-- Pieces of one group. -/
def groupSegs (g : List Hit) : Res (List Seg × List Copy) :=
  match g with
  | [h] => do
    let s ← hitElems h
    return (s, [])
  | _ => do
    let s ← flatMapRes hitRows g
    return trim (sortoffsets s)

/-- `H5VL_log_dataset_readi_gen_rtypes`, src/H5VL_log_dataseti.cpp L444-677, on sorted blocks. -/
def genSegs : List (List Hit) → Res (List Seg × List Copy)
  | [] => .ok ([], [])
  | g :: gs => do
    let a ← groupSegs g
    let b ← genSegs gs
    return (a.1 ++ b.1, a.2 ++ b.2)

/-- Byte pairs (file displacement, memory address) of a piece. -/
def Seg.pairs (s : Seg) : List (Int × Nat) :=
  (List.range s.len).map (fun i => (s.f + (i : Nat), s.m + i))

/-- Store one byte. -/
def upd (mem : Mem) (a : Nat) (v : Byte) : Mem := fun x => if x = a then v else mem x

/-- Byte pairs performed in typemap order. -/
def applyPairs (disk : Mem) : List (Int × Nat) → Mem → Mem
  | [], mem => mem
  | p :: ps, mem => applyPairs disk ps (upd mem p.2 (disk p.1.toNat))

/-- A file view must have non-negative, non-decreasing displacements (MPI standard); anything else is
undefined. -/
def viewOK (ps : List (Int × Nat)) : Bool :=
  decide ((ps.map Prod.fst).Pairwise (· ≤ ·)) && ps.all (fun p => decide (0 ≤ p.1))

/-- `MPI_File_set_view` + `MPI_File_read_at_all`, src/H5VL_logi_nb.cpp L405-416. -/
def mpiRead (disk : Mem) (segs : List Seg) (mem : Mem) : Res Mem :=
  let ps := segs.flatMap Seg.pairs
  if viewOK ps then .ok (applyPairs disk ps mem) else .ub

/-- `memcpy (o.dst, o.src, o.size)`, src/H5VL_logi_nb.cpp L427-428. -/
def memcpy (c : Copy) (mem : Mem) : Mem :=
  fun a => if c.dst ≤ a ∧ a < c.dst + c.size then mem (c.src + ((a - c.dst : Nat) : Int)).toNat else mem a

/-- Reading part of `H5VL_log_nb_perform_read`, src/H5VL_logi_nb.cpp L341-520, given the sorted search
results: unfiltered datasets, memory type equal to the dataset type. -/
def readHits (disk : Mem) (hs : List Hit) (mem : Mem) : Res Mem := do
  let g ← genSegs (groups hs)
  let mem ← mpiRead disk g.1 mem
  return g.2.foldl (fun m c => memcpy c m) mem

end Verif
