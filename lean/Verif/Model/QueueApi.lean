import Verif.Model.Api
import Verif.Model.Queue

/-
H5Dread with a buffered transfer list, dataspaces of the file and of memory, and a memory type: what the call puts into the queue
(`H5VL_log_dataset_read_1`, src/H5VL_log_dataset.cpp L283-323; `H5VL_log_dataseti_read`, src/H5VL_log_dataseti.cpp L1034-1141) and what
H5Fflush does with it after the data has been read (src/H5VL_logi_nb.cpp L485-517).
-/

namespace Verif

/-- `H5Tconvert` from the type of the dataset to a memory type that is not equal to it: size of the memory type, conversion of one element. -/
structure Conv where
  size : Nat
  elem : List Byte → List Byte

/-- Arguments of H5Dread: dataset, dataspaces, user buffer, memory type (`none`: equal to the type of the dataset).  `xbuf` is what
`H5VL_log_filei_balloc` returns if an internal buffer is needed (L1098-1104). -/
structure RCall where
  did : Nat
  f : FArg
  m : MArg
  ubuf : Nat
  xbuf : Nat
  conv : Option Conv

/-- Size of an element in memory. -/
def RCall.size (c : RCall) (e : Nat) : Nat :=
  match c.conv with
  | none => e
  | some v => v.size

/-- An entry of `fp->rreqs` (`H5VL_log_rreq_t`): what is read, number of elements (`rsize`), user buffer, conversion (`dtype`, `mtype`), and
the typemap of `ptype`. -/
structure Pend where
  q : RReq
  n : Nat
  ubuf : Nat
  conv : Option Conv
  ptype : Option (List Nat)

/-- `ptype` (L1106-1111): `get_mpi_type` of the memory selection. -/
def memType (srt : List (List Nat) → List Nat) (e : Nat) : Option (List Nat × H5Sel) → Res (Option (List Nat))
  | none => .ok none
  | some (_, .all _) => .ok none
  | some (dims, sel) => do
    let t ← selections srt dims.length sel
    let offs ← memOffs dims e t.blocks
    t.destroy dims.length
    return some offs

/-- H5Dread with a buffered transfer list: what it puts into the queue. -/
def FState.h5dreadQ (srt : List (List Nat) → List Nat) (c : RCall) (st : FState) : Res (Option Pend) :=
  match st.dsets[c.did]? with
  | some (some d) => do
    let s ← selections srt d.ndim (c.f.resolve d).2
    if s.nsel = 0 then return none
    else if c.conv.isNone && wholeMem (c.m.resolve d c.f) then
      return some ⟨⟨c.did, d, s.blocks, c.ubuf⟩, (s.blocks.map Blk.size).sum, c.ubuf, none, none⟩
    else do
      let t ← memType srt (c.size d.esize) (c.m.resolve d c.f)
      return some ⟨⟨c.did, d, s.blocks, c.xbuf⟩, (s.blocks.map Blk.size).sum, c.ubuf, c.conv, t⟩
  | _ => .ub

/-- `H5Tconvert` of the internal buffer, in place (src/H5VL_logi_nb.cpp L489-503). -/
def Pend.convert (p : Pend) (mem : Mem) : Mem :=
  match p.conv with
  | none => mem
  | some v => writeAt mem p.q.xbuf
      ((List.range p.n).flatMap (fun i => v.elem (fileBytes mem (p.q.xbuf + p.q.d.esize * i) p.q.d.esize)))

/-- `esize` (L494, L502). -/
def Pend.size (p : Pend) : Nat :=
  match p.conv with
  | none => p.q.d.esize
  | some v => v.size

/-- Post-processing of a request (L487-517).  The size given to `MPI_Unpack` is computed with the element size of the dataset. -/
def Pend.post (p : Pend) (mem : Mem) : Res Mem :=
  let mem1 := p.convert mem
  if p.q.xbuf = p.ubuf then .ok mem1
  else match p.ptype with
    | some offs => mpiUnpack (fileBytes mem1 p.q.xbuf (p.n * p.size)) (p.n * p.q.d.esize) p.ubuf offs mem1
    | none => .ok (writeAt mem1 p.ubuf (fileBytes mem1 p.q.xbuf (p.n * p.size)))

def posts : List Pend → Mem → Res Mem
  | [], mem => .ok mem
  | p :: ps, mem => do
    let mem' ← p.post mem
    posts ps mem'

/-- On all processes. -/
def postsAll : List (List Pend) → List Mem → Res (List Mem)
  | [], [] => .ok []
  | ps :: pss, m :: ms => do
    let m' ← posts ps m
    let ms' ← postsAll pss ms
    return m' :: ms'
  | _, _ => .ub

/-- A file, the queue of every process, the memory of every process. -/
structure PState where
  st : FState
  rq : List (List Pend)
  mem : List Mem

/-- What is read, without the post-processing. -/
def PState.raw (s : PState) : QState := ⟨s.st, s.rq.map (·.map Pend.q), s.mem⟩

/-- H5Dread by process `r`. -/
def PState.read (srt : List (List Nat) → List Nat) (r : Nat) (c : RCall) (s : PState) : Res PState := do
  let p ← s.st.h5dreadQ srt c
  match p with
  | none => return s
  | some p => return { s with rq := s.rq.modify r (· ++ [p]) }

/-- H5Fflush: a possible outcome. -/
def PState.Flush (fuel : Nat) (fill : Nat → Option (List Byte)) (doff mdoff : Nat) (s : PState) (out : Res PState) : Prop :=
  ∃ o, s.raw.Flush fuel fill doff mdoff o ∧ out = do
    let s' ← o
    let ms ← postsAll s.rq s'.mem
    return ⟨s'.st, s.rq.map (fun _ => []), ms⟩

end Verif
