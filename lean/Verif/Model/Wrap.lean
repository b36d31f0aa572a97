import Verif.Model.Bytes

/-
References: what the objects of the connector, its wrap contexts and its files hold of each other and of the connector below
(src/H5VL_log_wrap.cpp, src/H5VL_log_obji.cpp L57-97, src/H5VL_log_filei.cpp L1029-1120, and the callbacks that open and
close objects).  `Handles` is about one log-based file; here there are any number of files, log-based or ordinary, and calls
of the connector below may fail.

Simplified: all files use one connector below (`uvlid`), of which only the number of references is kept.  Every object
structure is given to the library exactly once, so its life is that of the handle.  Objects of the connector below are numbers.
-/

namespace Verif

/-- A file structure (`H5VL_log_file_t`): `is_log_based_file`, `refcnt`, whether the structure exists, how often
`H5VL_log_filei_close` closed the file below, and `wrapped_obj` (`none`: never set, src/H5VL_log_filei.cpp L1086-1111). -/
structure WFile where
  logBased : Bool
  refcnt : Int
  alive : Bool
  closes : Nat
  wrapped : Option Nat
deriving DecidableEq, Repr

/-- The files, and the references to the connector below: taken less released. -/
structure World where
  files : List WFile
  urefs : Int
deriving DecidableEq, Repr

/-- What a pointer given to the library refers to: a file structure, or an object structure (`H5VL_log_obj_t`) with its file
`fp` and the object below `uo` (`none`: NULL). -/
inductive Ptr where
  | file (f : Nat)
  | obj (f : Nat) (uo : Option Nat)
deriving DecidableEq, Repr

/-- The field `fp`, which both structures have (src/H5VL_log_obj.hpp L19; for a file it is the file itself, L1089). -/
def Ptr.fp : Ptr → Nat
  | .file f => f
  | .obj f _ => f

/-- Access to a file structure: undefined if it has been deleted. -/
def useFile (w : World) (f : Nat) : Res WFile :=
  match w.files[f]? with
  | some F => if F.alive then .ok F else .ub
  | none => .ub

/-- Use of the identifier of the connector below: undefined if it may have been closed. -/
def useVol (w : World) : Res Unit := if 0 < w.urefs then .ok () else .ub

/-- `H5VL_log_file_open` and `H5VL_log_file_create` (src/H5VL_log_file.cpp L129-181, L255-315, constructor
src/H5VL_log_filei.cpp L1086-1108): a reference count of 1 and a reference to the connector below. -/
def wopen (w : World) (lb : Bool) : Ptr × World :=
  (.file w.files.length, { files := w.files ++ [⟨lb, 1, true, 0, none⟩], urefs := w.urefs + 1 })

/-- `H5VL_log_filei_inc_ref` (src/H5VL_log_filei.cpp L1079). -/
def wincRef (w : World) (f : Nat) : Res World :=
  (useFile w f).bind fun F => .ok { w with files := w.files.set f { F with refcnt := F.refcnt + 1 } }

/-- `H5VL_log_filei_dec_ref` (L1081-1084), `H5VL_log_filei_close` for both kinds of files (L722-732, L813-841) and the
destructor that `delete fp` runs (src/H5VL_log_obji.cpp L81-97; that of the file is commented out, L1112-1120). -/
def wdecRef (w : World) (f : Nat) : Res World :=
  (useFile w f).bind fun F =>
    if F.refcnt - 1 = 0 then
      .ok { files := w.files.set f { F with refcnt := 0, alive := false, closes := F.closes + 1 }, urefs := w.urefs - 1 }
    else .ok { w with files := w.files.set f { F with refcnt := F.refcnt - 1 } }

/-- The constructors of `H5VL_log_obj_t` (src/H5VL_log_obji.cpp L66-80). -/
def wnew (w : World) (f : Nat) (uo : Option Nat) : Res (Ptr × World) :=
  (wincRef w f).bind fun w => .ok (.obj f uo, { w with urefs := w.urefs + 1 })

/-- The destructor (src/H5VL_log_obji.cpp L81-97) for an object of file `f`: first the file, then the connector below. -/
def wdelete (w : World) (f : Nat) : Res World :=
  (wdecRef w f).bind fun w => .ok { w with urefs := w.urefs - 1 }

/-- Open or create an object from the handle `p`; `r` is the result of the connector below.  Groups, attributes, named
datatypes and created datasets (src/H5VL_log_group.cpp L60-102, L130-171, src/H5VL_log_att.cpp L59-101, L125-184,
src/H5VL_log_datatype.cpp L54-90, L115-150, src/H5VL_log_dataset.cpp L101-108, L208-217) first make the structure and delete it
on failure; opened datasets of log-based files (`plainDset = false`; src/H5VL_log_dataset.cpp L261-270,
src/H5VL_log_dataseti.cpp L707-758) and `H5Oopen` (src/H5VL_log_obj.cpp L67-79) have the same effect.  `H5Dopen` in an ordinary
file (src/H5VL_log_dataset.cpp L253-258, `plainDset = true`) does not delete it. -/
def wopenObj (w : World) (p : Ptr) (plainDset : Bool) (r : Option Nat) : Res (Option Ptr × World) :=
  (useFile w p.fp).bind fun F =>
  (wnew w p.fp r).bind fun (q, w) =>
  (useVol w).bind fun _ =>
  if r.isSome then .ok (some q, w)
  else if plainDset && !F.logBased then .ok (none, w)
  else (wdelete w p.fp).bind fun w => .ok (none, w)

/-- `H5VL_FILE_REOPEN` (src/H5VL_log_file.cpp L409-412) on a pointer that the code takes for a file structure: with an object
structure it increments memory behind it. -/
def wreopen (w : World) : Ptr → Res (Ptr × World)
  | .file f => (wincRef w f).bind fun w => .ok (.file f, w)
  | .obj _ _ => .ub

/-- `H5VL_log_file_close` (src/H5VL_log_file.cpp L525-540) on a pointer that the code takes for a file structure. -/
def wcloseFile (w : World) : Ptr → Res World
  | .file f => wdecRef w f
  | .obj _ _ => .ub

/-- The callbacks that close groups, datasets, attributes, datatypes (src/H5VL_log_group.cpp L332-343, src/H5VL_log_dataset.cpp
L675-699, src/H5VL_log_att.cpp L570-581, src/H5VL_log_datatype.cpp L287-290); `ok` is the result of the connector below.  The flag
tells whether the object was closed. -/
def wcloseObj (w : World) (ok : Bool) : Ptr → Res (Bool × World)
  | .file _ => .ub
  | .obj f _ =>
    (useVol w).bind fun _ =>
    if ok then (wdelete w f).bind fun w => .ok (true, w) else .ok (false, w)

/-- `H5VL_log_get_wrap_ctx` (src/H5VL_log_wrap.cpp L62-98); `ok` is the result of the connector below.  The context keeps `fp`
(not counted) and a reference to the connector below.  On failure (L84) neither is undone. -/
def wgetCtx (w : World) (p : Ptr) (ok : Bool) : Res (Option Nat × World) :=
  (useFile w p.fp).bind fun _ =>
  (useVol { w with urefs := w.urefs + 1 }).bind fun _ =>
  .ok (if ok then some p.fp else none, { w with urefs := w.urefs + 1 })

/-- `H5VL_log_wrap_object` (src/H5VL_log_wrap.cpp L107-138) with the context of file `f`; `uo` is the object to wrap, `isFile`
whether the type is `H5I_FILE`, `r` the result of the connector below.  In an ordinary file the result is not looked at
(L120-121).  A log-based file is returned itself, not counted (L126, src/H5VL_log_filei.cpp L1070-1076). -/
def wwrap (w : World) (f uo : Nat) (isFile : Bool) (r : Option Nat) : Res (Option Ptr × World) :=
  (useVol w).bind fun _ =>
  (useFile w f).bind fun F =>
  if !F.logBased then (wnew w f r).bind fun (q, w) => .ok (some q, w)
  else if r.isSome then
    if isFile then .ok (some (.file f), { w with files := w.files.set f { F with wrapped := some uo } })
    else (wnew w f r).bind fun (q, w) => .ok (some q, w)
  else .ok (none, w)

/-- `H5VL_log_unwrap_object` (src/H5VL_log_wrap.cpp L150-177): an object is deleted, for a file `wrapped_obj` is returned.  The
result of the connector below for an object is the object that was wrapped (`uo`); `none` is NULL.  Undefined if
`wrapped_obj` was never set. -/
def wunwrap (w : World) : Ptr → Res (Option Nat × World)
  | .file f => (useFile w f).bind fun F =>
      match F.wrapped with
      | some u => .ok (some u, w)
      | none => .ub
  | .obj f uo => (useFile w f).bind fun _ => (useVol w).bind fun _ => (wdelete w f).bind fun w => .ok (uo, w)

/-- `H5VL_log_free_wrap_ctx` (src/H5VL_log_wrap.cpp L188-212); `ok` is the result of the connector below.  On failure (L201) the
reference is kept. -/
def wfreeCtx (w : World) (ok : Bool) : Res (Bool × World) :=
  (useVol w).bind fun _ => if ok then .ok (true, { w with urefs := w.urefs - 1 }) else .ok (false, w)

end Verif
