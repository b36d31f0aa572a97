import Verif.Model.Bytes

/-
Transfers with another type in memory than in the dataset: the conversion in `H5VL_log_dataseti_write`
(src/H5VL_log_dataseti.cpp L930-982) and in `H5VL_log_nb_perform_read` (src/H5VL_logi_nb.cpp L488-502).

Simplified: a type is an atom or a compound of atoms without padding; compounds inside compounds, arrays and types of variable
length are left out (`Types`).  Elements are packed; where they lie in the memory of the application is the matter of C47.
-/

namespace Verif.Convert

/-- An integer, floating point, string, opaque, … type: which, and its size. -/
structure Atom where
  cls : Nat
  size : Nat
deriving DecidableEq, Repr

/-- A type; the members of a compound with their names. -/
inductive CType where
  | atom (a : Atom)
  | compound (ms : List (Nat × Atom))
deriving DecidableEq, Repr

def membersSize (ms : List (Nat × Atom)) : Nat := (ms.map (·.2.size)).sum

/-- `H5Tget_size`. -/
def CType.size : CType → Nat
  | .atom a => a.size
  | .compound ms => membersSize ms

/-- `H5Tget_class (t) == H5T_COMPOUND`. -/
def CType.isCompound : CType → Bool
  | .atom _ => false
  | .compound _ => true

/-- The conversions between atoms that the HDF5 library has. -/
structure Lib where
  conv : Atom → Atom → Option (List Byte → List Byte)

/-- Type and bytes of the member `k` of the element `x`. -/
def member : List (Nat × Atom) → Nat → List Byte → Option (Atom × List Byte)
  | [], _, _ => none
  | (j, a) :: ms, k, x => if j = k then some (a, x.take a.size) else member ms k (x.drop a.size)

/-- There is a conversion. -/
def Lib.path (L : Lib) : CType → CType → Bool
  | .atom a, .atom b => (L.conv a b).isSome
  | .compound ms, .compound ds => ds.all fun d => (ms.lookup d.1).all fun a => (L.conv a d.2).isSome
  | _, _ => false

/-- A member of the result: converted or, if the source does not have it, taken from the background. -/
def Lib.value (L : Lib) (b : Atom) (bg : List Byte) : Option (Atom × List Byte) → Option (List Byte)
  | some (a, y) => (L.conv a b).map (fun f => f y)
  | none => some (bg.take b.size)

/-- The members of the result. -/
def Lib.members (L : Lib) (ms : List (Nat × Atom)) (x : List Byte) : List (Nat × Atom) → List Byte → Option (List Byte)
  | [], _ => some []
  | (k, b) :: ds, bg => do
    let v ← L.value b bg (member ms k x)
    let r ← L.members ms x ds (bg.drop b.size)
    some (v ++ r)

def Lib.elem (L : Lib) (src dst : CType) (x bg : List Byte) : Option (List Byte) :=
  match src, dst with
  | .atom a, .atom b => (L.conv a b).map (fun f => f x)
  | .compound ms, .compound ds => L.members ms x ds bg
  | _, _ => none

/-- Element `i` of packed elements of size `s`. -/
def chunk (s i : Nat) (bs : List Byte) : List Byte := (bs.drop (i * s)).take s

/-- `H5Tconvert`: whether it succeeds, and the buffer afterwards.  Without a conversion the buffer stays as it is.  The conversion of
compounds writes to the background buffer. -/
def h5tconvert (L : Lib) (src dst : CType) (n : Nat) (buf : List Byte) (bg : Option (List Byte)) : Res (Bool × List Byte) :=
  if L.path src dst then
    if 0 < n ∧ dst.isCompound ∧ bg = none then .ub
    else match (List.range n).mapM (fun i => L.elem src dst (chunk src.size i buf) (chunk dst.size i (bg.getD []))) with
      | some es => .ok (true, es.flatten)
      | none => .ub
  else .ok (false, buf)

/-- What `H5VL_log_dataseti_write` puts into the log for `n` elements of the type `m` in memory (L930-982).  `junk` and `bg` are what the
memory given out by `balloc` and `malloc` holds.  `err` is not looked at after `H5Tconvert`. -/
def dwrite (L : Lib) (t m : CType) (n : Nat) (buf junk bg : List Byte) : Res (List Byte) :=
  if buf.length < n * m.size then .ub
  else if t = m then .ok (buf.take (n * t.size))
  else do
    let r ← h5tconvert L m t n (buf.take (n * m.size) ++ junk) (if t.isCompound then some bg else none)
    .ok (r.2.take (n * t.size))

/-- What `H5VL_log_nb_perform_read` makes of `n` stored elements (L488-502). -/
def dread (L : Lib) (t m : CType) (n : Nat) (stored : List Byte) : Res (List Byte) :=
  if t = m then .ok stored
  else do
    let r ← h5tconvert L t m n stored none
    if r.1 then .ok r.2 else .err

end Verif.Convert
