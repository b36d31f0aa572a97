import Verif.Model.File

/-
Flushes that fail: what `H5VL_log_nb_flush_write_reqs` (src/H5VL_logi_nb.cpp L592-894) and `H5VL_log_filei_metaflush`
(src/H5VL_log_filei_meta.cpp L49-320) leave behind when one of the calls they make fails, and what the next call does then.

The failure is met by all processes at the same place. (If it is met by one, the others wait in the next collective call.)
Neither function removes the dataset it has created, and neither is undone by its callers.
-/

namespace Verif

/-- Where a flush stops. `early`: before the log or metadata dataset exists: the MPI type, the collective calls that find the sizes, the
dataspace, the property lists, the creation itself (src/H5VL_logi_nb.cpp L676-739, src/H5VL_log_filei_meta.cpp L121-194).
`late`: afterwards: the file offset, the reopening, the write, the closing (src/H5VL_logi_nb.cpp L741-815,
src/H5VL_log_filei_meta.cpp L198-287); `d` is what the space of the new dataset then holds: nothing, a part or all of what was
to be written. -/
inductive Stop where
  | early
  | late (d : Mem)

/-- The file, and whether the log group has a data dataset with the number `nldset`, the name that the next flush uses. -/
structure GState where
  st : FState
  stray : Bool

/-- How a call ends. -/
inductive FOut where
  | ok (g : GState)
  | failed (g : GState)
  | ub

/-- The space of a new dataset holds `d`. -/
def patch (disk d : Mem) (addr n : Nat) : Mem := fun x => if addr ≤ x ∧ x < addr + n then d x else disk x

/-- The offsets assigned so far (src/H5VL_logi_nb.cpp L663-673). -/
def FState.aim (st : FState) : FState := { st with ranks := st.ranks.map Rank.setLocal }

/-- `H5VL_log_nb_flush_write_reqs`. The dataset is called after `fp->nldset` (L717), which is increased at the very end (L828);
creating a dataset under a name that exists fails (L734-739). -/
def GState.flush (f : Option Stop) (doff : Nat) (g : GState) : FOut :=
  match g.st.flush doff with
  | .ok st' =>
    let total := (g.st.ranks.map Rank.localSize).sum
    match f with
    | some .early => .failed { g with st := g.st.aim }
    | some (.late d) =>
      if total = 0 then .ok { g with st := st' }
      else if g.stray then .failed { g with st := g.st.aim }
      else .failed { st := { g.st.aim with disk := patch g.st.disk d doff total }, stray := true }
    | none =>
      if total = 0 then .ok { g with st := st' }
      else if g.stray then .failed { g with st := g.st.aim }
      else .ok { g with st := st' }
  | _ => .ub

/-- `H5VL_log_filei_metaflush`. `fp->nmdset` is increased as soon as the dataset exists (L195), so its name is not used again. -/
def GState.metaflush (f : Option Stop) (mdoff : Nat) (g : GState) : FOut :=
  let total := (mdSizes g.st.ranks).sum
  match f with
  | some .early => .failed g
  | some (.late d) =>
    if 8 * (g.st.ranks.length + 1) < total then
      .failed { g with st := { g.st with disk := patch g.st.disk d mdoff total, mds := g.st.mds ++ [⟨mdoff, total⟩] } }
    else .ok { g with st := g.st.metaflush mdoff }
  | none => .ok { g with st := g.st.metaflush mdoff }

/-- One call after the other, as long as they succeed. -/
def FOut.bind : FOut → (GState → FOut) → FOut
  | .ok g, k => k g
  | o, _ => o

/-- H5Fflush, src/H5VL_log_filei.cpp L669-687 (no read is queued). -/
def GState.fileFlush (f : Option Stop) (doff : Nat) (g : GState) : FOut :=
  if g.st.anyPending then g.flush f doff else .ok g

/-- What a blocking read does first: see `FState.prepare`. -/
def GState.prepare (f f' : Option Stop) (coll : Bool) (doff mdoff : Nat) (g : GState) : FOut :=
  (if (coll || decide (g.st.ranks.length = 1)) && g.st.anyPending then g.flush f doff else .ok g).bind (fun g1 =>
    if g1.st.metadirty then g1.metaflush f' mdoff else .ok g1)

/-- H5Fclose, src/H5VL_log_filei.cpp L735-770: the attribute with the number of metadata datasets is written last. -/
def GState.close (f f' : Option Stop) (doff mdoff : Nat) (g : GState) : FOut :=
  (g.flush f doff).bind (fun g1 => (g1.metaflush f' mdoff).bind (fun g2 =>
    .ok { g2 with st := { g2.st with saved := g2.st.mds.length } }))

end Verif
