import Verif.Model.Bytes

/-
Datatypes of datasets: which are accepted by H5Dcreate, how large an element is, and what of an
element the connector stores (src/H5VL_log_dataset.cpp L86-90 and L131-134, src/H5VL_log_dataseti.cpp
L930-965 and L1092-1121).  64-bit little-endian host.
-/

namespace Verif.Types

/-- A datatype of HDF5.  A compound type with more members, and an array type, is a chain of `pair`s;
`pad` is the number of unused bytes between two members. -/
inductive HType where
  /-- integers, floating point numbers, enumerations, opaque types, strings of a fixed length -/
  | fixed (n : Nat)
  /-- `H5T_C_S1` with size `H5T_VARIABLE`: a `char *` in memory -/
  | vstr
  /-- `H5Tvlen_create`: an `hvl_t` in memory, i.e. a `size_t` and a `void *` -/
  | vlen (t : HType)
  | pair (a : HType) (pad : Nat) (b : HType)
deriving DecidableEq, Repr

namespace HType

/-- `H5Tget_size`; this is `dip->esize` (src/H5VL_log_dataset.cpp L133, src/H5VL_log_dataseti.cpp L722). -/
def size : HType → Nat
  | fixed n => n
  | vstr => 8
  | vlen _ => 16
  | pair a pad b => a.size + pad + b.size

/-- `H5Tis_variable_str`: true of a string type of variable length, not of a type that has one inside. -/
def isVariableStr : HType → Bool
  | vstr => true
  | _ => false

end HType

/-- The test of the type in `H5VL_log_dataset_create` (src/H5VL_log_dataset.cpp L88-90): "Variable length types are not
supported".  There is no other. -/
def createType (t : HType) : Res Nat :=
  if t.isVariableStr then .err else .ok t.size

/-- What `H5VL_log_dataseti_write` puts into the log for one element at the start of the buffer `buf`, whose type in memory is that of the
dataset (src/H5VL_log_dataseti.cpp L930-965): `esize` bytes as they are.  Other types in memory: `Convert`. -/
def writeElem (t : HType) (buf : List Byte) : Res (List Byte) :=
  if buf.length < t.size then .ub else .ok (buf.take t.size)

/-- What `H5Dread` puts into the buffer for a stored element `bs` (src/H5VL_log_dataseti.cpp L1092-1121, src/H5VL_logi_nb.cpp
L488-517). -/
def readElem (_ : HType) (bs : List Byte) : Res (List Byte) := .ok bs

end Verif.Types
