import Verif.Model.Tree

/-
Objects addressed by index and by token, and the name of an open object.  The calls pass the location parameters on to the
under VOL; only names given with `H5VL_OBJECT_BY_NAME` are mapped.

Simplified: an object can be opened by its token while some link leads to it or a handle refers to it (links in groups that
were removed count as well); the name of an open object is that of the path with which it was opened from the file.
-/

namespace Verif

/-- Operations by index and by token.  `dec`: `H5_ITER_DEC`, otherwise `H5_ITER_INC`.  Tokens are the numbers of objects. -/
inductive IOp where
  /-- `H5Oopen_by_idx` -/
  | openIdx (loc : Nat) (p : Name) (o : TOrder) (dec : Bool) (n : Nat)
  /-- `H5Lget_name_by_idx` -/
  | nameIdx (loc : Nat) (p : Name) (o : TOrder) (dec : Bool) (n : Nat)
  /-- `H5Oget_info_by_idx`: the token -/
  | infoIdx (loc : Nat) (p : Name) (o : TOrder) (dec : Bool) (n : Nat)
  /-- `H5Ldelete_by_idx` -/
  | deleteIdx (loc : Nat) (p : Name) (o : TOrder) (dec : Bool) (n : Nat)
  /-- `H5Gget_info_by_name`: number of links -/
  | countName (loc : Nat) (p : Name)
  /-- `H5Gget_info_by_idx`: number of links -/
  | countIdx (loc : Nat) (p : Name) (o : TOrder) (dec : Bool) (n : Nat)
  /-- `H5Oget_info`: the token of an open object -/
  | token (h : Nat)
  /-- `H5Oopen_by_token` -/
  | openToken (loc : Nat) (o : Nat)
deriving DecidableEq, Repr

/-- The link with an index in a group: group and name. -/
def Tree.nth (t : Tree) (loc : Nat) (p : Name) (o : TOrder) (dec : Bool) (n : Nat) : Res (Nat × Name) :=
  match t.find loc p with
  | none => .err
  | some g => if t.kind g = some .group then
      match (if dec then (t.listing g o).reverse else t.listing g o)[n]? with
      | none => .err
      | some c => .ok (g, c)
    else .err

/-- The object with an index in a group. -/
def Tree.nthObj (t : Tree) (loc : Nat) (p : Name) (o : TOrder) (dec : Bool) (n : Nat) : Res Nat := do
  let l ← t.nth loc p o dec n
  match t.look l.1 l.2 with
  | none => .err
  | some x => .ok x

/-- An object that can be opened by its token. -/
def TState.live (s : TState) (o : Nat) : Bool :=
  decide (o = 0) || s.tree.links.any (fun l => l.target == o) || s.handles.contains o

/-- One operation, on a log-based file (`log`) or an ordinary one.  `H5VL_log_object_open` passes locations by index and by
token on (src/H5VL_log_obj.cpp L59-68), as `H5VL_log_group_get` does (src/H5VL_log_group.cpp L182-213) and the callbacks of
tokens (src/H5VL_log_token.cpp L36-118); `H5VL_log_object_get`, `H5VL_log_link_get` and `H5VL_log_link_specific` refuse
locations by index (src/H5VL_log_obj.cpp L191-206, src/H5VL_log_link.cpp L297-312, L378-392). -/
def TState.stepI (log : Bool) (s : TState) : IOp → Res (TState × TOut)
  | .openIdx h p o dec n => do
    let loc ← s.at h
    let x ← s.tree.nthObj loc p o dec n
    return (⟨s.tree, s.handles ++ [x]⟩, .obj x)
  | .nameIdx h p o dec n => if log then .err else do
    let loc ← s.at h
    let l ← s.tree.nth loc p o dec n
    return (s, .names [l.2])
  | .infoIdx h p o dec n => if log then .err else do
    let loc ← s.at h
    let x ← s.tree.nthObj loc p o dec n
    return (s, .obj x)
  | .deleteIdx h p o dec n => if log then .err else do
    let loc ← s.at h
    let l ← s.tree.nth loc p o dec n
    return (⟨s.tree.unlink l, s.handles⟩, .done)
  | .countName h p => do
    let loc ← s.at h
    match s.tree.find loc p with
    | none => .err
    | some g => do
      let n ← s.tree.nlinks g
      return (s, .num n)
  | .countIdx h p o dec n => do
    let loc ← s.at h
    let x ← s.tree.nthObj loc p o dec n
    let n ← s.tree.nlinks x
    return (s, .num n)
  | .token h => do
    let o ← s.at h
    return (s, .obj o)
  | .openToken h o => do
    let _ ← s.at h
    if s.live o then return (⟨s.tree, s.handles ++ [o]⟩, .obj o) else .err

/-- Operations of both kinds. -/
inductive XOp where
  | name (op : TOp)
  | other (op : IOp)
deriving DecidableEq, Repr

def TState.stepX (w : TNames) (log : Bool) (s : TState) : XOp → Res (TState × TOut)
  | .name op => s.step w op
  | .other op => s.stepI log op

/-- A sequence of operations, as `TState.run`. -/
def TState.runX (w : TNames) (log : Bool) : TState → List XOp → TState × List (Res TOut)
  | s, [] => (s, [])
  | s, op :: ops => match s.stepX w log op with
    | .ok r => let q := r.1.runX w log ops; (q.1, .ok r.2 :: q.2)
    | .err => let q := s.runX w log ops; (q.1, .err :: q.2)
    | .ub => (s, [.ub])

/-- `H5Iget_name` (`H5VL_OBJECT_GET_NAME` passed on, src/H5VL_log_obj.cpp L208) of an object just opened from the file with a
path: the under VOL keeps the path it was given, without what names nothing. -/
def TNames.told (w : TNames) (p : Name) : Res Name := do
  let n ← w.given p
  return '/' :: joinPath (pathParts n)

end Verif
