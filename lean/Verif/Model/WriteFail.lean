import Verif.Model.File

/-
H5Dwrite that fails: what `H5VL_log_dataseti_write` (src/H5VL_log_dataseti.cpp L786-1022) leaves behind.
-/

namespace Verif

/-- `H5VL_log_dataseti_write` with a non-empty selection that fails after its request has been made and encoded (L835-923): in
`H5Pget_buffered` (L926), in `H5VL_log_filei_balloc`, which refuses to go beyond the limit of H5Pset_nb_buffer_size or runs out of memory
(L942, L996, src/H5VL_log_filei.cpp L84-107), in the type of the memory selection (L956), in a filter that the connector does not know (L990,
src/H5VL_logi_filter.cpp L58-60). The request has got into the table of selections (L854-856) but gets neither into the queue nor into
`mdsize` (L1013-1017). It is never released, so the table does not refer to freed memory. The table is emptied by the next flush of the
metadata only (src/H5VL_log_filei_meta.cpp L317). (A failure before, with a null pointer as buffer (L829), leaves nothing.) -/
def writeRankFails (cfg : Cfg) (d : DInfo) (did : Nat) (bs : List Blk) (st : Rank) : Res Rank :=
  if bs = [] then .ok st else do
    let x ← dedup cfg (mkWReq cfg d did bs st.mdsize []) st
    return { st with hash := x.2 }

/-- The failed call on process `r`. -/
def FState.writeFails (r did : Nat) (bs : List Blk) (st : FState) : Res FState :=
  match st.ranks[r]?, st.dsets[did]? with
  | some k, some (some d) => do
    let k' ← writeRankFails st.cfg d did bs k
    return { st with ranks := st.ranks.set r k' }
  | _, _ => .ub

end Verif
