import Verif.Model.SecCount

/-
Reads that load the metadata in parts, with numbers of sections of 64 bits.
-/

namespace Verif

/-- The `while (md != -1)` loop of `H5VL_log_read_idx_search`, src/H5VL_logi_nb.cpp L329-338, as `loadLoop`. -/
def loadLoopW (st : FState) (lim : Nat) (qs : List RReq) : Nat → Nat × Nat → Res (List Hit)
  | 0, _ => .ub
  | fuel + 1, pos => do
    let p ← loadPartW st.disk st.mds lim pos.1 pos.2
    let ix ← (Idx.empty st.compact).parse st.dsets st.cfg.share p.1
    let hs ← flatMapRes ix.search qs
    match p.2 with
    | none => return hs
    | some pos' => do
      let hs' ← loadLoopW st lim qs fuel pos'
      return hs ++ hs'

end Verif
