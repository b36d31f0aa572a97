import Verif.Model.Names

/-
Attributes addressed by index and iterated: src/H5VL_log_att.cpp L113-184 (open), L283-372 (get), L384-498 (iterate),
src/H5VL_log_atti.cpp L14-33.  The under VOL sees the stored attributes of an object in some order (creation order, or order
of names) and addresses them from the front or from the back.
-/

namespace Verif

/-- Kinds of objects the code distinguishes (`op->type`). -/
inductive ObjKind where
  | file
  | dataset
  | group
deriving DecidableEq, Repr

/-- `H5_ITER_INC`, `H5_ITER_DEC`. -/
inductive Dir where
  | inc
  | dec
deriving DecidableEq, Repr

/-- An attribute of the under VOL: stored name and creation order. -/
structure UAttr where
  name : Name
  corder : Int
deriving DecidableEq, Repr

/-- The under VOL: attribute number `n` of the list in the given direction. -/
def underAttr (l : List UAttr) (d : Dir) (n : Nat) : Res UAttr :=
  match (match d with | .inc => l | .dec => l.reverse)[n]? with
  | some a => .ok a
  | none => .err

/-- Number of internal attributes the code skips. -/
def skipCount : ObjKind → Nat
  | .file => 1
  | .dataset => 3
  | .group => 0

/-- `H5VL_log_attr_open` by index (L128-156): the attribute opened.  The index is shifted only in log-based files. -/
def attrOpenIdx (log : Bool) (k : ObjKind) (l : List UAttr) (d : Dir) (n : Nat) : Res UAttr :=
  underAttr l d (if log then n + skipCount k else n)

/-- `H5VL_log_attr_get` by index (L299-359), name or information: the attribute whose data are returned.  The call is made
with the shifted index; for decreasing order it is repeated with the original one.  Done for all files. -/
def attrGetIdx (k : ObjKind) (l : List UAttr) (d : Dir) (n : Nat) : Res UAttr := do
  let a ← underAttr l d (n + skipCount k)
  match d with
  | .inc => return a
  | .dec => underAttr l d n

/-- Creation order reported (L339-343). -/
def attrCorder (k : ObjKind) (a : UAttr) : Int := a.corder - skipCount k

/-- `H5Aiterate` of the under VOL from index `start`: the callback is called for every attribute until it returns a value
different from 0 (`stop`); the result lists the names it was called with. -/
def underIterate (stop : Name → Bool) : List Name → List Name
  | [] => []
  | s :: ss => if stop s then [s] else s :: underIterate stop ss

/-- `H5VL_ATTR_ITER` (L430-437) with the wrapper `H5VL_log_atti_iterate_op`: the names the user's callback is called
with, in order.  The start index is passed on unchanged. -/
def attrIterate (stop : Name → Bool) (start : Nat) (l : List UAttr) : List Name :=
  (underIterate (fun s => ((nameShown s).map stop).getD false) ((l.drop start).map (·.name))).filterMap nameShown

/-- The attributes stored with a dataset that has the user attributes `user` (stored names), in creation order
(src/H5VL_log_dataset.cpp L166-173). -/
def dsetAttrs (user : List Name) : List UAttr :=
  ((["_dims".toList, "_mdims".toList, "_ID".toList] ++ user).mapIdx (fun i s => ⟨s, i⟩))

end Verif
