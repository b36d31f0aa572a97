import Verif.Model.Attr

/-
Number of attributes reported for an object: `H5VL_log_object_get` (src/H5VL_log_obj.cpp L172-225) and the callback of a
recursive visit (src/H5VL_log_obji.cpp L18-38).  `num_attrs` is a 64-bit unsigned number.
-/

namespace Verif

/-- An object as the under VOL stores it: what it is (`file`: the root group), and the names of its attributes. -/
structure StoredObj where
  kind : ObjKind
  attrs : List Name
deriving DecidableEq, Repr

/-- Attributes of the root group of a log-based file (src/H5VL_log_filei.cpp L281-289), of a dataset
(src/H5VL_log_dataset.cpp L166-173), of any other object; objects of ordinary files have only those of the user.  `user` are
stored names. -/
def storedObj (log : Bool) (k : ObjKind) (user : List Name) : StoredObj :=
  ⟨k, if log then
    match k with
    | .file => "_int_att".toList :: user
    | .dataset => "_dims".toList :: "_mdims".toList :: "_ID".toList :: user
    | .group => user
  else user⟩

/-- Subtraction of 64-bit unsigned numbers. -/
def subU64 (a b : Nat) : Nat := (a + 2 ^ 64 - b) % 2 ^ 64

/-- `H5VL_log_object_get` with `H5VL_OBJECT_GET_INFO`: `num_attrs` for the object `o` the under VOL finds.  `handle` is the
type of the handle the call is made on (`op->type`), which is not the type of `o` when the object is given by name (L211-218).
The file being log-based is not asked. -/
def infoAttrs (handle : ObjKind) (o : StoredObj) : Nat := subU64 (o.attrs.length % 2 ^ 64) (skipCount handle)

/-- `num_attrs` in the information passed to the callback of `H5Ovisit` (src/H5VL_log_obji.cpp L33): that of the under VOL. -/
def visitAttrs (o : StoredObj) : Nat := o.attrs.length % 2 ^ 64

end Verif
