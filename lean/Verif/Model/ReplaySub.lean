import Verif.Model.Replay
import Verif.Model.Groups

/-
h5lreplay of a file with subfiles: utils/h5lreplay/h5lreplay.cpp L93-130, L226-296.
-/

namespace Verif

/-- Colour by which the processes are split (L105). -/
def replayColor (r : Nat) : Nat := r % 2

/-- Number of groups of processes (L114-121). -/
def replayNodes (color : Nat → Nat) (np : Nat) : Nat := leaders color np

/-- Processes in the group of `r` (L232). -/
def replaySubnp (color : Nat → Nat) (np r : Nat) : Nat := ((List.range np).filter (fun i => color i == color r)).length

/-- Subfiles that process `r` handles, in order: the values of `i` of the loop, plus the number of the group, if below the number of
subfiles (L244-252, L284). -/
def replaySubs (color : Nat → Nat) (np nsub r : Nat) : List Nat :=
  (((List.range nsub).filter (fun i => decide (i % replayNodes color np = 0))).map (· + groupId color r)).filter
    (fun j => decide (j < nsub))

/-- All writes of process `r`: the requests of the previous subfile are cleared, those of the next one parsed with the rank and size
of the group, and written (L249-281). -/
def replaySubProc (color : Nat → Nat) (np nsub : Nat) (sub : Nat → FState) (r : Nat) : Res (List RWrite) :=
  flatMapRes (fun j => (sub j).replayProc (replaySubnp color np r) (groupRank color r)) (replaySubs color np nsub r)

/-- A possible result. The processes write independently, in any interleaving. -/
def replaySub (color : Nat → Nat) (np nsub : Nat) (sub : Nat → FState) (out : Res HData) : Prop :=
  (∃ ls l, ls.length = np ∧ (∀ r (h : r < ls.length), replaySubProc color np nsub sub r = .ok ls[r]) ∧ Interleaved ls l ∧
    out = .ok (l.foldl hwrite (fun _ _ _ => none))) ∨
  (∃ r < np, replaySubProc color np nsub sub r = .err ∧ out = .err) ∨
  (∃ r < np, replaySubProc color np nsub sub r = .ub ∧ out = .ub)

end Verif
