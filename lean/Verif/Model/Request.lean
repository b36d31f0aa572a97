import Verif.Model.Bytes

/-
Combined requests (src/H5VL_log_req.cpp L49-113, src/H5VL_log_reqi.cpp L22-38).

The requests of the under VOL are modelled by the status they report.  The callback of a notification may be run by several
threads at once: its accesses to the shared context are separate steps that may be interleaved (`cnt` is atomic in the code,
`stat` is not).
-/

namespace Verif

/-- `H5VL_request_status_t`. -/
inductive RStat where
  | progress
  | succeed
  | fail
  | cantCancel
  | canceled
deriving DecidableEq, Repr

/-- A part: its stored status and what `H5VLrequest_wait` on it would return (`none`: an error). -/
structure Part where
  stat : RStat
  answer : Option RStat
deriving DecidableEq, Repr

/-- Status of a part after the call (L56-59). -/
def partStat (p : Part) : Option RStat := if p.stat = .progress then p.answer else some p.stat

/-- Combination (L61-65, and src/H5VL_log_reqi.cpp L26-30). -/
def combine (acc st : RStat) : RStat := if st = .fail then .fail else if acc = .succeed then st else acc

/-- The loop of `H5VL_log_request_wait` (L54-66); `none` if a wait fails. -/
def waitLoop : List Part → RStat → Option RStat
  | [], acc => some acc
  | p :: ps, acc => (partStat p).bind fun st => waitLoop ps (combine acc st)

/-- `H5VL_log_request_wait`: the status reported, and whether the request is released (L68). -/
def reqWait (ps : List Part) : Option (RStat × Bool) :=
  (waitLoop ps .succeed).map fun st => (st, st != .progress)

/-! ### Notification -/

/-- Where a callback is: not started; about to store its status, having found `stat` to be SUCCEED (L29); about to decrement
(L32); about to call the user (L33); finished. -/
inductive Pc where
  | start
  | store
  | dec
  | fire
  | done
deriving DecidableEq, Repr

/-- The callback of one part. -/
structure Thr where
  pc : Pc
  status : RStat
deriving DecidableEq, Repr

/-- The context (`H5VL_log_req_notify_ctx_t`), whether it is freed, the statuses the user callback has been called with, and
the callbacks of the parts. -/
structure Notify where
  cnt : Int
  stat : RStat
  freed : Bool
  fired : List RStat
  thrs : List Thr
deriving DecidableEq, Repr

/-- `H5VL_log_request_notify` (L96-100). -/
def notifyInit (sts : List RStat) : Notify := ⟨sts.length, .succeed, false, [], sts.map (fun st => ⟨.start, st⟩)⟩

/-- Moves a callback. -/
def Notify.move (s : Notify) (i : Nat) (t : Thr) (pc : Pc) : Notify := { s with thrs := s.thrs.set i ⟨pc, t.status⟩ }

/-- One step of the callback of part `i` (`none`: it cannot step).  Touching the context after it was freed is undefined. -/
def notifyStep (s : Notify) (i : Nat) : Option (Res Notify) :=
  s.thrs[i]?.bind fun t =>
    if t.pc = .done then none
    else some (
      if s.freed then .ub
      else match t.pc with
        | .start =>
          if t.status = .fail then .ok ({ s with stat := .fail }.move i t .dec)
          else if s.stat = .succeed then .ok (s.move i t .store)
          else .ok (s.move i t .dec)
        | .store => .ok ({ s with stat := t.status }.move i t .dec)
        | .dec =>
          if s.cnt - 1 = 0 then .ok ({ s with cnt := s.cnt - 1 }.move i t .fire)
          else .ok ({ s with cnt := s.cnt - 1 }.move i t .done)
        | .fire => .ok ({ s with fired := s.stat :: s.fired, freed := true }.move i t .done)
        | .done => .ub)

end Verif
