import Verif.Model.Read

/-
Memory selections: src/H5VL_logi_dataspace.cpp L551-622 (`get_mpi_type`), packing of a write (src/H5VL_log_dataseti.cpp
L953-962) and unpacking of a read (src/H5VL_logi_nb.cpp L487-517).
-/

namespace Verif

/-- `get_mpi_type`: byte offsets in the user buffer, in typemap order, for the blocks `bs` of a memory space of shape `dims`.
One subarray type per block, all of them at displacement 0.  Without blocks there is no type; a subarray needs dimensions;
the shape is converted to `int`. -/
def memOffs (dims : List Nat) (e : Nat) (bs : List Blk) : Res (List Nat) :=
  if ¬ dims.all (fun n => decide (n < 2 ^ 31)) then .ub
  else if dims = [] ∨ bs = [] ∨ ¬ bs.all (fun b => subarrayOK dims b.count b.start) then .err
  else .ok (bs.flatMap (fun b => (boxIdx b.count).flatMap (fun x =>
    (List.range e).map (fun k => e * lin dims (adds b.start x) + k))))

/-- `MPI_Pack` into a buffer of `size` bytes. -/
def mpiPack (mem : Mem) (ubuf : Nat) (offs : List Nat) (size : Nat) : Res (List Byte) :=
  if size < offs.length then .err else .ok (offs.map (fun o => mem (ubuf + o)))

/-- Bytes stored one after the other. -/
def storeAll (mem : Mem) : List (Nat × Byte) → Mem
  | [] => mem
  | p :: ps => storeAll (upd mem p.1 p.2) ps

/-- `MPI_Unpack` from a buffer of `size` bytes.  A type with a byte twice must not be used to receive. -/
def mpiUnpack (data : List Byte) (size : Nat) (ubuf : Nat) (offs : List Nat) (mem : Mem) : Res Mem :=
  if size < offs.length then .err
  else if offs.Nodup then .ok (storeAll mem ((offs.map (fun o => ubuf + o)).zip data))
  else .ub

/-- A write of `n` elements of `e` bytes from a memory selection: the bytes of the request.  Bytes of the internal buffer that
are not packed are uninitialised. -/
def gather (mem : Mem) (ubuf n e : Nat) (dims : List Nat) (bs : List Blk) : Res (List Byte) := do
  let offs ← memOffs dims e bs
  let data ← mpiPack mem ubuf offs (n * e)
  if data.length = n * e then return data else .ub

/-- A read of `n` elements into a memory selection: `des` and `mes` are the element sizes of the dataset and of the memory
type, `conv` the conversion of the internal buffer.  The size given to `MPI_Unpack` is computed with the element size of
the dataset (L509). -/
def scatter (conv : List Byte → List Byte) (data : List Byte) (n des mes ubuf : Nat) (dims : List Nat) (bs : List Blk)
    (mem : Mem) : Res Mem := do
  let offs ← memOffs dims mes bs
  mpiUnpack (conv data) (n * des) ubuf offs mem

end Verif
