import Verif.Model.Args

/-
What H5Dwrite_n and H5Dread_n should be: calls that get the blocks themselves.
-/

namespace Verif.Spec

/-- Calls that get their blocks by value. -/
inductive VOp
  | write (r did : Nat) (bs : List Blk) (data : List Byte)
  | read (r did : Nat) (bs : List Blk) (xbuf : Nat)
  | file (f : FState → Res FState)

/-- The calls an application makes, with the blocks its arrays hold when it makes them. -/
def values : List Arrs → List AOp → Res (List VOp)
  | _, [] => .ok []
  | arrs, .writeN r addr n did data :: ops =>
    if n = 0 then values arrs ops
    else (fetch arrs r addr n).bind fun bs => (values arrs ops).bind fun vs => .ok (.write r did bs data :: vs)
  | arrs, .readN r addr n did xbuf :: ops =>
    if n = 0 then values arrs ops
    else (fetch arrs r addr n).bind fun bs => (values arrs ops).bind fun vs => .ok (.read r did bs xbuf :: vs)
  | arrs, .read r did bs xbuf :: ops =>
    if bs = [] then values arrs ops else (values arrs ops).bind fun vs => .ok (.read r did bs xbuf :: vs)
  | arrs, .set r addr o :: ops => values (setArr r addr o arrs) ops
  | arrs, .file f :: ops => (values arrs ops).bind fun vs => .ok (.file f :: vs)

/-- The calls H5Dread_n with at least one block: process, address, blocks found there at the call. -/
def asked : List Arrs → List AOp → List (Nat × Nat × List Blk)
  | _, [] => []
  | arrs, .readN r addr n _ _ :: ops =>
    (match fetch arrs r addr n with
      | .ok bs => if n = 0 then [] else [(r, addr, bs)]
      | _ => []) ++ asked arrs ops
  | arrs, .set r addr o :: ops => asked (setArr r addr o arrs) ops
  | arrs, .writeN .. :: ops => asked arrs ops
  | arrs, .read .. :: ops => asked arrs ops
  | arrs, .file _ :: ops => asked arrs ops

/-- What the arrays hold in the end. -/
def arrsAfter : List Arrs → List AOp → List Arrs
  | arrs, [] => arrs
  | arrs, .set r addr o :: ops => arrsAfter (setArr r addr o arrs) ops
  | arrs, _ :: ops => arrsAfter arrs ops

/-- The arrays of a process still hold the blocks of a call. -/
def StillHolds (arrs : List Arrs) (p : Nat × Nat × List Blk) : Prop := ∃ m l, arrs[p.1]? = some m ∧ m p.2.1 = some l ∧ p.2.2 <+: l

/-- A call by value. -/
def vstep (v : VOp) (s : QState) : Res QState :=
  match v with
  | .write r did bs data => s.onFile (FState.write r did bs data)
  | .read r did bs xbuf =>
    match s.st.dsets[did]? with
    | some (some d) => if r < s.rq.length then .ok (s.read r ⟨did, d, bs, xbuf⟩) else .ub
    | _ => .ub
  | .file f => s.onFile f

def vrun : List VOp → QState → Res QState
  | [], s => .ok s
  | v :: vs, s => (vstep v s).bind (vrun vs)

end Verif.Spec
