import Verif.Model.Request

/-
Requests handed out by the callbacks of the connector (`void **req`), and what the request callbacks do with them.

A callback that is given a place for a request makes an object `rp` of type `H5VL_log_req_t`, gives the under VOL a place
for a request of its own (`ureq`), appends what it finds there to `rp` and returns `rp`.  Some callbacks hand the place of the
application to the under VOL instead.  The under VOL decides for each call whether it fails, completes at once (it then
leaves the place as it was) or returns a request.

What a callback does besides is not modelled here; only its dealings with requests are.
-/

namespace Verif

/-- What a callback does with requests, given a place for one. -/
inductive RqAct where
  | new        -- rp = new H5VL_log_req_t (); ureqp = &ureq;
  | call       -- a call of the under VOL with `ureqp`, checked by CHECK_ERR or CHECK_PTR
  | recall     -- a call of the under VOL with `ureqp` whose failure is only noted (src/H5VL_log_att.cpp L335, L355)
  | raw        -- a call of the under VOL with `req` itself
  | append     -- rp->append (ureq);
  | publish    -- *req = rp;
deriving DecidableEq, Repr

/-- What the under VOL does with a call that is given a place for a request. -/
inductive UAns where
  | fails
  | now                -- done; the place is not written
  | later (h : Nat)    -- returns the request `h`
deriving DecidableEq, Repr

/-- `H5VL_log_req_t` (src/H5VL_log_req.hpp L21-33): the connector id of the base class (`none`: −1) and the parts.  A part is a
request of the under VOL, or whatever an uninitialised pointer held (`none`), with the status stored for it. -/
structure RqObj where
  uvlid : Option Nat
  parts : List (Option Nat × RStat)
deriving DecidableEq, Repr

/-- What the application finds in its place. -/
inductive RqOut where
  | obj (q : RqObj)   -- a request of the connector
  | under (h : Nat)   -- a request of the under VOL, not wrapped
deriving DecidableEq, Repr

/-- The variables of a callback; `issued`: the requests the under VOL has returned, in order. -/
structure RqSt where
  ans : List UAns
  ureq : Option Nat
  rp : Option RqObj
  out : Option RqOut
  issued : List Nat
  err : Bool
deriving DecidableEq, Repr

/-- At entry: `void *ureq` is not initialised. -/
def rqInit (ans : List UAns) : RqSt := ⟨ans, none, none, none, [], false⟩

/-- One action; `none`: the callback leaves through its error path, which frees neither `rp` nor `ureq`. A callback for which
the list has no more answers is answered `now`. -/
def rqStep (s : RqSt) : RqAct → RqSt × Bool
  | .new => ({ s with rp := some ⟨none, []⟩ }, true)
  | .call =>
    match s.ans with
    | [] => (s, true)
    | .fails :: as => ({ s with ans := as, err := true }, false)
    | .now :: as => ({ s with ans := as }, true)
    | .later h :: as => ({ s with ans := as, ureq := some h, issued := s.issued ++ [h] }, true)
  | .recall =>
    match s.ans with
    | [] => (s, true)
    | .fails :: as => ({ s with ans := as, err := true }, true)
    | .now :: as => ({ s with ans := as }, true)
    | .later h :: as => ({ s with ans := as, ureq := some h, issued := s.issued ++ [h] }, true)
  | .raw =>
    match s.ans with
    | [] => (s, true)
    | .fails :: as => ({ s with ans := as, err := true }, false)
    | .now :: as => ({ s with ans := as }, true)
    | .later h :: as => ({ s with ans := as, out := some (.under h), issued := s.issued ++ [h] }, true)
  | .append => ({ s with rp := s.rp.map fun q => { q with parts := q.parts ++ [(s.ureq, .progress)] } }, true)
  | .publish => ({ s with out := s.rp.map .obj }, true)

/-- A callback. -/
def rqRun : List RqAct → RqSt → RqSt
  | [], s => s
  | a :: as, s => if (rqStep s a).2 then rqRun as (rqStep s a).1 else (rqStep s a).1

/-! ### The callbacks -/

/-- A callback: where it is, in which case, and what it does with requests. -/
structure RqCb where
  name : String
  acts : List RqAct
deriving DecidableEq, Repr

/-- The common form. -/
def rqCommon : List RqAct := [.new, .call, .append, .publish]

/-- The callbacks that use the place they are given.  `H5VL_log_dataset_open`, `_read`, `_write`, `_close`, `H5VL_log_file_create`,
`_open`, `_close` and `H5VL_logi_add_att` (src/H5VL_logi_util.cpp L21-60) do not. -/
def rqCallbacks : List RqCb :=
  [⟨"attr create, src/H5VL_log_att.cpp L72-86", rqCommon⟩,
   ⟨"attr open, src/H5VL_log_att.cpp L147-169", rqCommon⟩,
   ⟨"attr read, src/H5VL_log_att.cpp L206-218", rqCommon⟩,
   ⟨"attr write, src/H5VL_log_att.cpp L250-262", rqCommon⟩,
   ⟨"attr get, src/H5VL_log_att.cpp L293-363", rqCommon⟩,
   ⟨"attr get by index in decreasing order, src/H5VL_log_att.cpp L293-363", [.new, .call, .recall, .append, .publish]⟩,
   ⟨"attr specific, other files, src/H5VL_log_att.cpp L403-411", [.new, .raw]⟩,
   ⟨"attr specific, src/H5VL_log_att.cpp L403-467", rqCommon⟩,
   ⟨"attr optional, src/H5VL_log_att.cpp L520-532", rqCommon⟩,
   ⟨"attr close, src/H5VL_log_att.cpp L563-576", rqCommon⟩,
   ⟨"dataset create, other files, src/H5VL_log_dataset.cpp L94-108", [.new, .call, .append]⟩,
   ⟨"dataset create, src/H5VL_log_dataset.cpp L94-177", [.new, .call, .append, .append, .append, .append, .publish]⟩,
   ⟨"dataset get, src/H5VL_log_dataset.cpp L442, L469", [.raw]⟩,
   ⟨"dataset specific, src/H5VL_log_dataset.cpp L515, L559", [.raw]⟩,
   ⟨"dataset optional, src/H5VL_log_dataset.cpp L590, L632", [.raw]⟩,
   ⟨"datatype commit, src/H5VL_log_datatype.cpp L64-76", rqCommon⟩,
   ⟨"datatype open, src/H5VL_log_datatype.cpp L125-136", rqCommon⟩,
   ⟨"datatype get, src/H5VL_log_datatype.cpp L170-181", rqCommon⟩,
   ⟨"datatype specific, src/H5VL_log_datatype.cpp L211-222", rqCommon⟩,
   ⟨"datatype optional, src/H5VL_log_datatype.cpp L252-263", rqCommon⟩,
   ⟨"datatype close, src/H5VL_log_datatype.cpp L287", [.raw]⟩,
   ⟨"file get, src/H5VL_log_file.cpp L346-349", [.raw]⟩,
   ⟨"file specific, src/H5VL_log_file.cpp L440, L452, L460", [.raw]⟩,
   ⟨"file optional, src/H5VL_log_file.cpp L496", [.raw]⟩,
   ⟨"group create, src/H5VL_log_group.cpp L72-86", rqCommon⟩,
   ⟨"group open, src/H5VL_log_group.cpp L142-155", rqCommon⟩,
   ⟨"group get, src/H5VL_log_group.cpp L193-205", rqCommon⟩,
   ⟨"group specific, src/H5VL_log_group.cpp L239-251", rqCommon⟩,
   ⟨"group optional, src/H5VL_log_group.cpp L282-294", rqCommon⟩,
   ⟨"group close, src/H5VL_log_group.cpp L325-338", rqCommon⟩,
   ⟨"link create, src/H5VL_log_link.cpp L77-78", [.raw]⟩,
   ⟨"link copy, src/H5VL_log_link.cpp L122-141", rqCommon⟩,
   ⟨"link move, src/H5VL_log_link.cpp L190-243", rqCommon⟩,
   ⟨"link get, src/H5VL_log_link.cpp L290-319", rqCommon⟩,
   ⟨"link specific, src/H5VL_log_link.cpp L362-414", rqCommon⟩,
   ⟨"link optional, src/H5VL_log_link.cpp L457-486", rqCommon⟩,
   ⟨"object open, src/H5VL_log_obj.cpp L68", [.raw]⟩,
   ⟨"object copy, src/H5VL_log_obj.cpp L145", [.raw]⟩,
   ⟨"object get, src/H5VL_log_obj.cpp L208", [.raw]⟩,
   ⟨"object specific, src/H5VL_log_obj.cpp L262, L291", [.raw]⟩,
   ⟨"object optional, src/H5VL_log_obj.cpp L356", [.raw]⟩]

/-! ### The request callbacks -/

/-- A call of the under VOL for one of its requests: the requests it still knows (`live`), and the status `stat h` it reports
for `h`.  The call is refused without a connector; it is undefined for a pointer that is no request (any more); a request that
is reported complete is released (the contract of `H5VLrequest_wait`). -/
def uReqWait (vlid : Option Nat) (stat : Nat → RStat) (live : List Nat) (p : Option Nat) : Res (RStat × List Nat) :=
  match vlid, p with
  | none, _ => .err
  | some _, none => .ub
  | some _, some h =>
    if h ∈ live then .ok (stat h, if stat h = .progress then live else live.filter (· != h)) else .ub

/-- The loop of `H5VL_log_request_wait` (src/H5VL_log_req.cpp L55-67). -/
def rqWaitLoop (vlid : Option Nat) (stat : Nat → RStat) : List Nat → List (Option Nat × RStat) → RStat → Res RStat
  | _, [], acc => .ok acc
  | live, (p, st) :: ps, acc =>
    if st = .progress then
      (uReqWait vlid stat live p).bind fun r => rqWaitLoop vlid stat r.2 ps (combine acc r.1)
    else rqWaitLoop vlid stat live ps (combine acc st)

/-- `H5VL_log_request_wait` (src/H5VL_log_req.cpp L49-76) on what the application was given.  A request of the under VOL is taken
for an object of type `H5VL_log_req_t` (L51): undefined. -/
def rqWait (stat : Nat → RStat) (live : List Nat) : RqOut → Res RStat
  | .under _ => .ub
  | .obj q => rqWaitLoop q.uvlid stat live q.parts .succeed

/-- Whether the class of the connector has request callbacks (`request_cls`, src/H5VL_log_main.cpp L42-50): all six entries are
NULL.  `H5VL_log_request_g` (src/H5VL_log_req.cpp L26-34) is used nowhere. -/
def rqInstalled : Bool := false

/-- Waiting by the application: the library calls the callback of the class, and fails without one. -/
def appWait (inst : Bool) (stat : Nat → RStat) (live : List Nat) (o : RqOut) : Res RStat :=
  if inst then rqWait stat live o else .err

/-- The loops of `H5VL_log_request_notify`, `_cancel`, `_optional` and `_free` (src/H5VL_log_req.cpp L102-107, L131-136, L204-207,
L227-232): one call of the under VOL for each part; `f h`: whether the call succeeds. -/
def rqEach (f : Nat → Bool) (vlid : Option Nat) : List (Option Nat × RStat) → Res Unit
  | [] => .ok ()
  | (p, _) :: ps =>
    match vlid, p with
    | none, _ => .err
    | some _, none => .ub
    | some _, some h => if f h then rqEach f vlid ps else .err

/-- `H5VL_log_request_notify`, `_cancel`, `_optional`, `_free` on what the application was given. -/
def rqFree (f : Nat → Bool) : RqOut → Res Unit
  | .under _ => .ub
  | .obj q => rqEach f q.uvlid q.parts

end Verif
