import Verif.Model.Dataspace
import Verif.Model.Scatter
import Verif.Model.File

/-
H5Dwrite and H5Dread with dataspaces of the file and of memory: `H5VL_log_dataset_write_1` and `_read_1` (src/H5VL_log_dataset.cpp
L283-379), `H5VL_log_dataseti_write` (src/H5VL_log_dataseti.cpp L787-1022, the parts about buffers) and `H5VL_log_dataseti_read`
(L1034-1141), the end of `H5VL_log_nb_perform_read` (src/H5VL_logi_nb.cpp L485-517).  The memory type is the type of the dataset,
there are no filters, and the data of a write is copied by the call (the other case: `Model/Stage.lean`).
-/

namespace Verif

/-- `file_space_id`: `H5S_ALL`, or a dataspace with its extent and selection. -/
inductive FArg where
  | all
  | space (dims : List Nat) (sel : H5Sel)

/-- `mem_space_id`. -/
inductive MArg where
  | all
  | block
  | space (dims : List Nat) (sel : H5Sel)

/-- The dataspace `dsid` (src/H5VL_log_dataset.cpp L305-310, L358-363). -/
def FArg.resolve (d : DInfo) : FArg → List Nat × H5Sel
  | .all => (d.dims, .all d.dims)
  | .space dims sel => (dims, sel)

/-- `mem_space_id` as handed on (L315, L369); `none` stands for `H5S_BLOCK`. -/
def MArg.resolve (d : DInfo) (f : FArg) : MArg → Option (List Nat × H5Sel)
  | .all => some (f.resolve d)
  | .block => none
  | .space dims sel => some (dims, sel)

/-- Data of a write of `n` elements of `e` bytes (src/H5VL_log_dataseti.cpp L817-825, L936-965). -/
def takeBuf (srt : List (List Nat) → List Nat) (mem : Mem) (ubuf n e : Nat) : Option (List Nat × H5Sel) → Res (List Byte)
  | none => .ok (fileBytes mem ubuf (n * e))
  | some (_, .all _) => .ok (fileBytes mem ubuf (n * e))
  | some (dims, sel) => do
    let t ← selections srt dims.length sel
    let data ← gather mem ubuf n e dims t.blocks
    t.destroy dims.length
    return data

/-- H5Dwrite by process `r`. -/
def FState.h5dwrite (srt : List (List Nat) → List Nat) (r did : Nat) (f : FArg) (m : MArg) (ubuf : Nat) (mem : Mem) (st : FState) :
    Res FState :=
  match st.dsets[did]? with
  | some (some d) => do
    let s ← selections srt d.ndim (f.resolve d).2
    if s.nsel = 0 then do
      s.destroy d.ndim
      return st
    else do
      let data ← takeBuf srt mem ubuf (s.blocks.map Blk.size).sum d.esize (m.resolve d f)
      let st' ← st.write r did s.blocks data
      s.destroy d.ndim
      return st'
  | _ => .ub

/-- `eqtype > 0 && mstype == H5S_SEL_ALL` (L1093): the data is read into the user buffer. -/
def wholeMem : Option (List Nat × H5Sel) → Bool
  | none => true
  | some (_, .all _) => true
  | some _ => false

/-- Data is moved from the internal buffer to the user buffer (src/H5VL_logi_nb.cpp L505-516). -/
def putBuf (srt : List (List Nat) → List Nat) (xbuf ubuf n e : Nat) (ms : Option (List Nat × H5Sel)) (mem : Mem) : Res Mem :=
  match ms with
  | none => .ok mem
  | some (_, .all _) => .ok mem
  | some (dims, sel) => do
    let t ← selections srt dims.length sel
    let mem' ← scatter id (fileBytes mem xbuf (n * e)) n e e ubuf dims t.blocks mem
    t.destroy dims.length
    return mem'

/-- H5Dread by process `r`, after what `FState.dread` does: a possible result.  `xbuf` is the internal buffer, if one is needed. -/
def FState.h5dread (srt : List (List Nat) → List Nat) (fuel r did : Nat) (f : FArg) (m : MArg) (ubuf xbuf : Nat)
    (fill : Nat → Option (List Byte)) (mem : Mem) (st : FState) (out : Res Mem) : Prop :=
  match st.dsets[did]? with
  | some (some d) => match selections srt d.ndim (f.resolve d).2 with
    | .ok s =>
      if s.nsel = 0 then out = .ok mem
      else
        let ms := m.resolve d f
        ∃ o, st.reads fuel r fill [⟨did, d, s.blocks, if wholeMem ms then ubuf else xbuf⟩] mem o ∧
          out = do
            let mem1 ← o
            let mem2 ← putBuf srt xbuf ubuf (s.blocks.map Blk.size).sum d.esize ms mem1
            s.destroy d.ndim
            return mem2
    | .err => out = .err
    | .ub => out = .ub
  | _ => out = .ub

/-- Processes look into the log. -/
inductive FState.Searches : FState → FState → Prop
  | refl (st : FState) : FState.Searches st st
  | step {st st1 st2 : FState} {raw : List Hit} (fuel r : Nat) (qs : List RReq) : FState.Searches st st1 →
      st1.search fuel r qs = .ok (raw, st2) → FState.Searches st st2

end Verif
