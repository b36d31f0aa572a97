import Verif.Model.Disk

/-
Files as the application sees them.
-/

namespace Verif.Spec

/-- No path of a subfile of any file. -/
def OwnName (n : Name) : Prop := ∀ m g, n ≠ createPath m g

/-- Files by name, whatever they consist of. -/
def filesStep (d : Name → Option DFile) : FsOp → FsAns × (Name → Option DFile)
  | .create n excl groups =>
    if excl = true ∧ d n ≠ none then (.made (List.replicate (groups.getD 1) false), d)
    else (.made (List.replicate (groups.getD 1) true), fun m => if m = n then some .hdf else d m)
  | .delete n => if d n = some .hdf then (.deleted true, fun m => if m = n then none else d m) else (.deleted false, d)
  | .accessible n => (.says ((d n).map (fun f => f == .hdf)), d)

def filesRun : (Name → Option DFile) → List FsOp → List FsAns × (Name → Option DFile)
  | d, [] => ([], d)
  | d, op :: ops => ((filesStep d op).1 :: (filesRun (filesStep d op).2 ops).1, (filesRun (filesStep d op).2 ops).2)

def opName : FsOp → Name
  | .create n _ _ => n
  | .delete n => n
  | .accessible n => n

/-- Not H5Fcreate with H5F_ACC_EXCL and subfiling. -/
def NotExclSub : FsOp → Prop
  | .create _ excl groups => excl = false ∨ groups = none
  | _ => True

/-- The call gets to the native connector. -/
def reaches : FConn → FInfo → Bool
  | .native, _ => true
  | .log, .null => true
  | .log, .under c i => reaches c i
  | .pass _, .null => false
  | .pass _, .under c i => reaches c i

/-- Nothing but the native connector is directly below this one, wherever it is in the stack. -/
def shallow : FConn → FInfo → Bool
  | .native, _ => true
  | .log, .null => true
  | .log, .under c _ => decide (c = .native)
  | .pass _, .null => false
  | .pass _, .under c i => shallow c i

end Verif.Spec
