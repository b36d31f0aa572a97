import Verif.Model.Names
import Verif.Model.Meta

/-
Identifiers of datasets: src/H5VL_log_dataset.cpp L54-221 (create), src/H5VL_log_dataseti.cpp L689-761 (open),
src/H5VL_log_filei.cpp L109-199 (open of a file), L293-319 (visit of the datasets), L710-755 (close),
src/H5VL_log_obj.cpp L102-130 (copy).  All these calls are collective: one state stands for all processes.  Datasets of the root
group; the under VOL keeps objects by stored name.
-/

namespace Verif

/-- A dataset in the file: stored name, attribute `_ID` (`none`: missing), shape and type. -/
structure DObj where
  name : Name
  id : Option Nat
  d : DInfo
deriving DecidableEq, Repr

/-- An open file: `ndset`, `dsets_info`, access flag. -/
structure IdSess where
  ndset : Nat
  infos : List (Option DInfo)
  rdonly : Bool
deriving DecidableEq, Repr

/-- A file: number of datasets in the attribute `_int_att`, datasets, open file. -/
structure IdState where
  saved : Nat
  objs : List DObj
  sess : Option IdSess
deriving DecidableEq, Repr

/-- What a call returns: nothing, a dataset with the given identifier, an error. -/
inductive IdOut where
  | done
  | id (n : Nat)
  | failed
deriving DecidableEq, Repr

inductive IdOp where
  | create (n : Name) (d : DInfo)
  /-- creation that fails between the creation of the anchor dataset (L120-124) and the end -/
  | createBroken (n : Name) (d : DInfo)
  | copy (a b : Name)
  | delete (n : Name)
  | move (a b : Name)
  | openD (n : Name)
  | openF (rdonly : Bool)
  | closeF
  /-- the processes end without closing the file -/
  | crash
deriving DecidableEq, Repr

def findObj (l : List DObj) (s : Name) : Option DObj := l.find? (fun o => o.name == s)

/-- `H5VL_log_dataseti_open`: an exception if there is no `_ID`; `dsets_info[dp->id]` is undefined outside of the array. -/
def openObj (s : IdSess) (o : DObj) : Res IdSess :=
  match o.id with
  | none => .err
  | some i =>
    match s.infos[i]? with
    | none => .ub
    | some none => .ok { s with infos := s.infos.set i (some o.d) }
    | some (some _) => .ok s

/-- The visit of all datasets of a file that is opened. -/
def visitObjs (all : List DObj) (s : IdSess) : List DObj → Res IdSess
  | [] => .ok s
  | o :: os =>
    match visitName o.name with
    | none => visitObjs all s os
    | some n => do
      let st ← nameRemap n
      match findObj all st with
      | none => .err
      | some p => do
        let s ← openObj s p
        visitObjs all s os

/-- Result of a call from the result of the code: an exception is reported as failure and leaves `st`. -/
def IdState.outcome (st : IdState) (r : Res (IdState × IdOut)) : Res (IdState × IdOut) :=
  match r with
  | .err => .ok (st, .failed)
  | r => r

/-- The open file. -/
def IdState.open? (st : IdState) : Res IdSess := st.sess.elim .err .ok

/-- One call. -/
def idStep (st : IdState) : IdOp → Res (IdState × IdOut)
  | .create n d => st.outcome (do
    let s ← st.open?
    let nm ← nameRemap n
    if s.rdonly || (findObj st.objs nm).isSome then .err
    else return (⟨st.saved, st.objs ++ [⟨nm, some s.ndset, d⟩], some ⟨s.ndset + 1, s.infos ++ [some d], s.rdonly⟩⟩,
      .id s.ndset))
  | .createBroken n d => st.outcome (do
    let s ← st.open?
    let nm ← nameRemap n
    if s.rdonly || (findObj st.objs nm).isSome then .err
    else return ({ st with objs := st.objs ++ [⟨nm, none, d⟩] }, .failed))
  | .copy _ _ => .ok (st, .failed)
  | .delete n => st.outcome (do
    let s ← st.open?
    let nm ← nameRemap n
    if s.rdonly || (findObj st.objs nm).isNone then .err
    else return ({ st with objs := st.objs.filter (fun o => o.name != nm) }, .done))
  | .move a b => st.outcome (do
    let s ← st.open?
    let na ← nameRemap a
    let nb ← nameRemap b
    if s.rdonly || (findObj st.objs na).isNone || (findObj st.objs nb).isSome then .err
    else return ({ st with objs := st.objs.map (fun o => if o.name = na then { o with name := nb } else o) }, .done))
  | .openD n => st.outcome (do
    let s ← st.open?
    let nm ← nameRemap n
    match findObj st.objs nm with
    | none => .err
    | some o => do
      let s ← openObj s o
      match o.id with
      | none => .err
      | some i => return ({ st with sess := some s }, .id i))
  | .openF ro => st.outcome (
    match st.sess with
    | some _ => .err
    | none => do
      let s ← visitObjs st.objs ⟨st.saved, List.replicate st.saved none, ro⟩ st.objs
      return ({ st with sess := some s }, .done))
  | .closeF => st.outcome (do
    let s ← st.open?
    return ({ st with saved := if s.rdonly then st.saved else s.ndset, sess := none }, .done))
  | .crash => .ok ({ st with sess := none }, .done)

/-- A history and what its calls return. -/
def idRun (st : IdState) : List IdOp → Res (IdState × List IdOut)
  | [] => .ok (st, [])
  | op :: ops => do
    let r ← idStep st op
    let t ← idRun r.1 ops
    return (t.1, r.2 :: t.2)

/-- A file that has just been created. -/
def IdState.new : IdState := ⟨0, [], some ⟨0, [], false⟩⟩

end Verif
