import Verif.Model.Request

/-
Cancelling and releasing combined requests (src/H5VL_log_req.cpp L127-144, L236-252).  A part of the connector below is released by the call that
cancels or frees it, if that succeeds (the contract quoted in the comments at L122 and of `H5VLrequest_free`).  Using it again is undefined.
-/

namespace Verif

/-- A part: whether it still exists, the status that cancelling it reports (`none`: an error), whether it can be freed. -/
structure RPart where
  live : Bool
  cancel : Option RStat
  free : Bool
deriving DecidableEq, Repr

/-- `H5VL_log_req_t`. -/
structure RObj where
  parts : List RPart
  live : Bool
deriving DecidableEq, Repr

/-- The loops (L132-135, L241-244): each part is asked in turn, the status of one replaces that of the last.  The result: the parts, the status, and
whether the loop was completed. -/
def eachPart (ask : RPart → Option RStat) : List RPart → RStat → Res (List RPart × RStat × Bool)
  | [], s => .ok ([], s, true)
  | p :: ps, s =>
    if p.live = false then .ub
    else match ask p with
      | none => .ok (p :: ps, s, false)
      | some st => (eachPart ask ps st).bind fun r => .ok ({ p with live := false } :: r.1, r.2)

/-- The object is deleted after a completed loop (L137, L246). -/
def reqEach (ask : RPart → Option RStat) (o : RObj) (s : RStat) : Res (RObj × RStat × Bool) :=
  if o.live = false then .ub
  else (eachPart ask o.parts s).bind fun r => .ok (⟨r.1, !r.2.2⟩, r.2)

/-- `H5VL_log_request_cancel` (L127-144): the object, `*status`, and whether the call succeeds. `s`: `*status` before. -/
def reqCancel : RObj → RStat → Res (RObj × RStat × Bool) := reqEach RPart.cancel

/-- `H5VL_log_request_free` (L236-252). -/
def reqFree (o : RObj) : Res (RObj × Bool) :=
  (reqEach (fun p => if p.free then some .succeed else none) o .succeed).bind fun r => .ok (r.1, r.2.2)

end Verif
