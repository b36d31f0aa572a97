import Verif.Model.Coll

/-
Operations on several datasets at once (`H5Dwrite_multi`, `H5Dread_multi`): src/H5VL_log_dataset.cpp L381-419.

The callbacks call the callback for one dataset for each dataset in turn.  The callback for one dataset catches exceptions and
returns a code; the loop around it throws one (`CHECK_ERR`, src/H5VL_logi_err.hpp L58-64) outside any `try`, so the exception
leaves the callback and reaches the library, which is written in C.
-/

namespace Verif

/-- How a callback ends: it returns success, an exception leaves it, or its behaviour is undefined. -/
inductive MOut (σ : Type) where
  | ret (st : σ)
  | exn (st : σ)
  | ub

/-- One of the writes: dataset, blocks and data; `ok`: the parts of the call that may fail before the request is queued
(allocation, conversion, filters: C23, C47) succeed. -/
structure MWrite where
  ok : Bool
  did : Nat
  bs : List Blk
  data : List Byte
deriving DecidableEq, Repr

/-- `H5VL_log_dataset_write_2` (L401-419) of process `r`.  A write that fails leaves the state as it was (C27 has the exception:
with sharing the selection stays in the table of selections). -/
def multiWrite (r : Nat) : List MWrite → FState → MOut FState
  | [], st => .ret st
  | w :: ws, st =>
    if w.ok then
      match st.write r w.did w.bs w.data with
      | .ok st' => multiWrite r ws st'
      | .err => .exn st
      | .ub => .ub
    else .exn st

/-- The collective calls of `H5VL_log_dataset_read_2` (L381-399) of process `r`; `sels`: what the selections of the datasets find in the
log (see `readP`). -/
def multiReadP (o : COpt) (n : Net) (r : Nat) : List (Option Bool) → Proc → Prog Proc
  | [], p => .ret p
  | s :: ss, p => (readP o (n.gc r) (n.pos r) (n.len (n.gc r)) n.np s p).bind (multiReadP o n r ss)

end Verif
