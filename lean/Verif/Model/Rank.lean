import Verif.Model.Meta

/-
The write side of one process: request queue and deduplication table.
src/H5VL_log_dataseti.cpp L787-1022, src/H5VL_logi_nb.cpp L160-194.
-/

namespace Verif

/-- Per-process part of `H5VL_log_file_t`, src/H5VL_log_file.hpp: `wreqs`, `nflushed`, `mdsize`,
`wreq_hash`. The table maps a copy of the key to a pointer to the queued request; flags, record
number and `meta_off` of a queued request never change, so the key alone is kept. -/
structure Rank where
  wreqs : List WReq
  nflushed : Nat
  mdsize : Nat
  hash : List WReq
deriving DecidableEq, Repr

def Rank.init : Rank := { wreqs := [], nflushed := 0, mdsize := 0, hash := [] }

/-- `std::hash<H5VL_log_wreq_t>`, src/H5VL_logi_nb.cpp L174-184: exclusive or of the 8-byte words of
the selection bytes (a tail shorter than 8 bytes is ignored). -/
def wreqHash (r : WReq) : Nat :=
  (words (r.selBuf.length / 8) r.selBuf).foldl (· ^^^ ·) 0

/-- `operator==`, src/H5VL_logi_nb.cpp L186-194, called as `*r == key`: equal sizes and equal bytes
over the length of the left selection. Reading past the end of the right one is undefined. -/
def wreqEq (r key : WReq) : Res Bool :=
  if r.metaSize ≠ key.metaSize then .ok false
  else if key.selBuf.length < r.selBuf.length then .ub
  else .ok (decide (r.selBuf = key.selBuf.take r.selBuf.length))

/-- `wreq_hash.find (*r)`: keys with equal hash code are compared, in some order (here: the order of
insertion). -/
def hashFind (r : WReq) : List WReq → Res (Option WReq)
  | [] => .ok none
  | k :: ks =>
    if wreqHash r = wreqHash k then do
      let b ← wreqEq r k
      if b then return some k else hashFind r ks
    else hashFind r ks

/-- Reference to an earlier entry, src/H5VL_log_dataseti.cpp L858-877 and L918-921: the selection is
replaced by `meta_off - mdsize`; the record number is kept unless both are the same record. -/
def mkRef (r k : WReq) (mdsize : Nat) : WReq :=
  let full := r.flags.recd && k.flags.recd && decide (r.recnum = k.recnum)
  { r with
    flags := { r.flags with ref := true, defl := false, recd := r.flags.recd && !full }
    selBuf := sleN 8 ((k.metaOff : Int) - mdsize) }

/-- Deduplication, src/H5VL_log_dataseti.cpp L850-884: the request as it will be queued and the new
table. -/
def dedup (cfg : Cfg) (r : WReq) (st : Rank) : Res (WReq × List WReq) :=
  if cfg.share && decide (8 < r.selBuf.length) then do
    match ← hashFind r st.hash with
    | none => return (r, st.hash ++ [r])
    | some k => return (mkRef r k st.mdsize, st.hash)
  else return (r, st.hash)

/-- `H5VL_log_dataseti_write`, src/H5VL_log_dataseti.cpp L787-1022, for a non-empty selection, without
merging; `data` are the bytes after packing, conversion and filtering. -/
def writeRank (cfg : Cfg) (d : DInfo) (did : Nat) (bs : List Blk) (data : List Byte) (st : Rank) :
    Res Rank :=
  if bs = [] then .ok st else do
    let x ← dedup cfg (mkWReq cfg d did bs st.mdsize data) st
    return { st with wreqs := st.wreqs ++ [x.1], mdsize := st.mdsize + x.1.metaSize, hash := x.2 }

end Verif
