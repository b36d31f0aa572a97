import Verif.Model.Bytes

/-
Names of objects.  A name is the list of its characters without the terminating zero.
-/

namespace Verif

abbrev Name := List Char

/-- `H5VL_logi_name_remap`, src/H5VL_logi_util.hpp L110-129. -/
def nameRemap (n : Name) : Res Name :=
  if n = [] then .err else if n.head? = some '_' then .ok ('_' :: n) else .ok n

/-- What a call does with the name given by the user before it passes it to the under VOL. -/
inductive NameUse where
  /-- create or open a dataset (src/H5VL_log_dataset.cpp L86, L252), group (src/H5VL_log_group.cpp L65, L134), named type
  (src/H5VL_log_datatype.cpp L56, L117), attribute (src/H5VL_log_att.cpp L64, L130); attribute exists and delete (L443, L449);
  object open, copy, get, specific, optional (src/H5VL_log_obj.cpp L63-344); link move, get, specific, optional
  (src/H5VL_log_link.cpp L202-469) -/
  | remapped
  /-- link create (src/H5VL_log_link.cpp L44-86), link copy (L102-147), attribute rename (src/H5VL_log_att.cpp L437-452): the
  name is passed on unchanged -/
  | unchanged
deriving DecidableEq, Repr

def NameUse.stored : NameUse → Name → Res Name
  | .remapped, n => nameRemap n
  | .unchanged, n => .ok n

/-- The name passed to the callback of an iteration (`none`: skipped): src/H5VL_log_linki.cpp L13-32,
src/H5VL_log_obji.cpp L20-38, src/H5VL_log_atti.cpp L14-33. -/
def nameShown (s : Name) : Option Name :=
  if s.head? = some '_' then if s.tail.head? = some '_' then some s.tail else none else some s

/-- Name of an attribute as reported by `H5VL_ATTR_GET_NAME` (src/H5VL_log_att.cpp L282-349): the stored name. -/
def attrName (s : Name) : Name := s

/-- The visit of all objects of a file that is opened (`H5VL_log_filei_dset_visit`, src/H5VL_log_filei.cpp L293-319): the
name with which a dataset is opened, `none` if it is skipped. -/
def visitName (s : Name) : Option Name :=
  if (s.head? = some '_' ∧ s.tail.head? ≠ some '_') ∨ s.head? = some '/' ∨ s.head? = some '.' then none
  else if s.head? = some '_' then some s.tail else some s

/-- Decimal digits of a number (`%d`). -/
def digits (n : Nat) : Name := (toString n).toList

/-- Names of internal objects: src/H5VL_log_filei.hpp L23-27, src/H5VL_log_dataseti.hpp L16-18, src/H5VL_log_filei_meta.cpp
L187, src/H5VL_logi_nb.cpp L721, src/H5VL_log_dataset.cpp L190. -/
inductive InternalName : Name → Prop
  | log : InternalName "_LOG".toList
  | att : InternalName "_int_att".toList
  | dims : InternalName "_dims".toList
  | mdims : InternalName "_mdims".toList
  | id : InternalName "_ID".toList
  | md (n : Nat) : InternalName ("_md_".toList ++ digits n)
  | ld (n : Nat) : InternalName ("_ld_".toList ++ digits n)
  | dset (n : Nat) : InternalName ("_dset".toList ++ digits n)

end Verif
