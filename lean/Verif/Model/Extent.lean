import Verif.Model.Meta

/-
Changing the extent of a dataset: `H5VL_DATASET_SET_EXTENT` in src/H5VL_log_dataset.cpp L522-556.
-/

namespace Verif

/-- What the call changes: the current extent and the radix table in memory (`dip->dims`, `dip->dsteps`) and the extent
recorded in the file (attribute `_dims`). -/
structure ExtState where
  dims : List Nat
  steps : List Nat
  att : List Nat
deriving DecidableEq, Repr

/-- The state after creating a dataset with selection encoding (L152-157, L166); the table is written at index
`ndim - 1`. -/
def ExtState.create (dims : List Nat) : Res ExtState :=
  if dims = [] then .ub else .ok ⟨dims, dsteps dims, dims⟩

/-- The loop L527-533: result (false: "size cannot exceed max size") and the contents of `dims`. -/
def extentLoop : List (Option Nat) → List Nat → List Nat → Bool × List Nat
  | m :: ms, n :: ns, d :: ds =>
    if m.any (fun k => decide (k < n)) then (false, d :: ds)
    else ((extentLoop ms ns ds).1, n :: (extentLoop ms ns ds).2)
  | _, _, ds => (true, ds)

/-- The call (L522-556) with selection encoding on (`enc`) or off; `attOK` tells whether writing the attribute succeeds.
Result: whether the call succeeds, and the state.  `steps` of a dataset without dimensions is written out of bounds. -/
def setExtent (enc attOK : Bool) (mdims : List (Option Nat)) (new : List Nat) (st : ExtState) : Res (Bool × ExtState) :=
  let r := extentLoop mdims new st.dims
  if !r.1 then .ok (false, { st with dims := r.2 })
  else if !attOK then .ok (false, { st with dims := r.2 })
  else if enc then
    if r.2 = [] then .ub else .ok (true, ⟨r.2, dsteps r.2, r.2⟩)
  else .ok (true, { st with dims := r.2, att := r.2 })

end Verif
