import Verif.Model.File

/-
Calls that name a file by any of its objects, and flush calls on objects: `H5VL_log_file_specific` with H5VL_FILE_FLUSH
(src/H5VL_log_file.cpp L391-460), `H5VL_log_file_get` with H5VL_FILE_GET_NAME (L331-357), and the flush operations of
datasets (src/H5VL_log_dataset.cpp L502-572), groups (src/H5VL_log_group.cpp L222-262), committed types
(src/H5VL_log_datatype.cpp L195-235) and objects (src/H5VL_log_obj.cpp L241-310), which are passed on.

The library hands the structure of the object to the callbacks: H5Fflush and H5Fget_name accept files, groups, datasets, committed types and
attributes.  Requests (`req`) are not used.
-/

namespace Verif.Flush

/-- Fields of the structures that these callbacks look at (src/H5VL_log_obj.hpp L17-22, src/H5VL_log_dataset.hpp L42-45,
src/H5VL_log_file.hpp L38-). -/
inductive Field where
  | uo
  | uvlid
  | id
  | isLog
deriving DecidableEq, Repr

/-- `H5VL_log_obj_t` (groups, committed types, attributes), `H5VL_log_dset_t`, `H5VL_log_file_t`. -/
inductive Kind where
  | obj
  | dset
  | file
deriving DecidableEq, Repr

def Kind.fields : Kind → List Field
  | .obj => [.uo, .uvlid]
  | .dset => [.uo, .uvlid, .id]
  | .file => [.uo, .uvlid, .isLog]

/-- A structure: its kind and the object below. -/
structure Obj where
  kind : Kind
  uo : Nat

/-- Access to a field; a structure without the field is shorter than the one it is taken for. -/
def Obj.look {α : Type} (o : Obj) (f : Field) (k : Res α) : Res α := if f ∈ o.kind.fields then k else .ub

/-- The connector below: whether its flush calls succeed, and the name of the file of an object. -/
structure Below where
  fileFlush : Nat → Bool
  objFlush : Nat → Bool
  name : Nat → Option String

inductive Call where
  /-- H5Fflush -/
  | file (o : Obj)
  /-- H5Dflush, H5Gflush, H5Tflush, H5Oflush -/
  | object (o : Obj)
  /-- H5Fget_name -/
  | name (o : Obj)

inductive Ans where
  | done
  | failed
  | name (s : String)
deriving DecidableEq, Repr

def said (b : Bool) : Ans := if b then .done else .failed

/-- A call on an object of a file that is log-based (`log`) or ordinary; by all processes together. -/
def call (B : Below) (log : Bool) (doff : Nat) (st : FState) : Call → Res (Ans × FState)
  | .file o => o.look .isLog (if log then do
        let st' ← st.fileFlush doff
        pure (.done, st')
      else o.look .uo (o.look .uvlid (.ok (said (B.fileFlush o.uo), st))))
  | .object o => o.look .uo (o.look .uvlid (.ok (said (B.objFlush o.uo), st)))
  | .name o => o.look .uo (o.look .uvlid (.ok ((B.name o.uo).elim .failed .name, st)))

/-- A sequence of calls. -/
def calls (B : Below) (log : Bool) (doff : Nat) : FState → List Call → Res (List Ans × FState)
  | st, [] => .ok ([], st)
  | st, c :: cs => do
    let r ← call B log doff st c
    let t ← calls B log doff r.2 cs
    pure (r.1 :: t.1, t.2)

end Verif.Flush
