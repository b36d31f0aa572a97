import Verif.Model.Held

/-
Histories of calls, what may be lost, and the bill for what is lost by calls that succeed.
-/

namespace Verif.Held

/-- A history of calls and their results. -/
def runs (c : Conf) : List Call → M (List Bool)
  | [] => pure []
  | x :: xs => do
    let b ← call c x
    let bs ← runs c xs
    pure (b :: bs)

/-- How many resources of a kind are held. -/
def St.count (s : St) (k : Kind) : Nat := s.held.countP (·.kind = k)

/-- Not a read that is queued and needs a conversion. -/
def Quiet : Call → Prop
  | .read p => p.queue = true → p.conv = false
  | _ => True

/-- Kinds without an owner that releases them when a call fails: selections, requests and what belongs to them, the result of a filter,
objects of the connector below, the buffers of the passthru transfer, the dataspaces and sections of an update, index entries. -/
def lossy : List Kind :=
  [.sel, .wreq, .mreq, .xbuf, .fbuf, .rreq, .ptype, .dtype, .mtype, .ldp, .mbuff, .mspace, .mdp, .mdsid, .ent, .secs]

/-- The read finds the index as it needs it. -/
def idle (f : File) (p : RArgs) : Bool := f.valid && !f.dirty && !(p.coll && (f.pending || p.more || p.else_))

/-- What a call that succeeds leaves behind. -/
def bill (c : Conf) (s : St) (x : Call) (s' : St) : List Kind :=
  match x with
  | .write p => if !p.empty && (c.merge && c.other) then [.wreq] else []
  | .read p =>
    if p.empty then [.sel]
    else if idle s.file p then []
    else List.replicate (if c.compact then s.file.idx.length else 0) .ent ++ List.replicate (s'.file.md.length - 1) .mdsid
  | .flush _ => []

/-- Calls of the bill: reads are collective and not queued; no process has queued reads. -/
def Plain : Call → Prop
  | .read p => p.coll = true ∧ p.queue = false
  | .flush p => p.reads = false
  | _ => True

/-- A history of calls that succeed, and its bill. -/
inductive Billed (c : Conf) : St → List Call → St → List Kind → Prop
  | nil (s : St) : Billed c s [] s []
  | cons {s s1 s2 : St} {x : Call} {xs : List Call} {L : List Kind} : (.ok true, s1) ∈ call c x s → Billed c s1 xs s2 L →
      Billed c s (x :: xs) s2 (L ++ bill c s x s1)

end Verif.Held
