import Verif.Model.Meta

/-
Copies of selections: the copy constructor, `operator=`, `operator==`, `convert_to_deep` and the destructor of
`H5VL_log_selections`, src/H5VL_logi_dataspace.cpp L160-163, L439-549; members
with initial values: src/H5VL_logi_dataspace.hpp L22-26, L46.

Memory: blocks of dimension sizes, and pointer arrays with the coordinates they point to (`starts`, `counts`; allocated together by
`alloc`, L506-529, and released together).  An address without content was released.  Simplified: allocations succeed, and the
pointers of an array are in the order in which `alloc` set them (for those that the constructor from a dataspace has moved see
`Sel.destroy` and C14_points_violated).
-/

namespace Verif.Copies

/-- Start and count of a block. -/
abbrev Box := List Nat × List Nat

structure Heap where
  dims : Nat → Option (List Nat)
  boxes : Nat → Option (List Box)
  next : Nat

/-- `dims`: never set, `NULL`, or an address. -/
inductive DPtr
  | junk
  | null
  | at (a : Nat)
deriving DecidableEq, Repr

/-- An object; `ndim = none`: never set; `boxes`: the address of the pointer arrays, of the object itself (`deep`: `sels_arr` is
set) or of somebody else. -/
structure Obj where
  ndim : Option Nat
  nsel : Nat
  dims : DPtr
  boxes : Option Nat
  deep : Bool
deriving DecidableEq, Repr

namespace Heap

def freeDims (h : Heap) (a : Nat) : Res Heap :=
  match h.dims a with
  | none => .ub
  | some _ => .ok { h with dims := fun k => if k = a then none else h.dims k }

def freeBoxes (h : Heap) (a : Nat) : Res Heap :=
  match h.boxes a with
  | none => .ub
  | some _ => .ok { h with boxes := fun k => if k = a then none else h.boxes k }

def putDims (h : Heap) (a : Nat) (v : List Nat) : Heap := { h with dims := fun k => if k = a then some v else h.dims k }

/-- A new block of dimension sizes. -/
def newDims (h : Heap) (v : List Nat) : Heap × Nat := ({ h.putDims h.next v with next := h.next + 1 }, h.next)

/-- New pointer arrays. -/
def newBoxes (h : Heap) (v : List Box) : Heap × Nat :=
  ({ h with boxes := fun k => if k = h.next then some v else h.boxes k, next := h.next + 1 }, h.next)

end Heap

/-- The arrays of the object are released (L452-456, L441-445). -/
def dropBoxes (h : Heap) (o : Obj) : Res Heap :=
  if o.deep then (match o.boxes with | some a => h.freeBoxes a | none => .ub) else .ok h

/-- What is found through `starts[0 .. nsel)` and `counts[0 .. nsel)`. -/
def boxesOf (h : Heap) (o : Obj) : Res (List Box) :=
  if o.nsel = 0 then .ok [] else
  match o.boxes with
  | none => .ub
  | some a => match h.boxes a with
    | none => .ub
    | some v => if v.length < o.nsel then .ub else .ok (v.take o.nsel)

/-- `n` coordinates of every start and count. -/
def coords (n : Nat) (v : List Box) : Res (List Box) :=
  if ∃ b ∈ v, b.1.length < n ∨ b.2.length < n then .ub else .ok (v.map fun b => (b.1.take n, b.2.take n))

/-- The dimension sizes (L458-467): `realloc` if the object has fewer dimensions than the other, and `memcpy` of `n` of them to
wherever `dims` points to. -/
def copyDims (h : Heap) (o : Obj) (n : Nat) (v : List Nat) : Res (Heap × DPtr) :=
  match o.ndim with
  | none => .ub
  | some k =>
    if k < n then
      match o.dims with
      | .junk => .ub
      | .null => .ok ((h.newDims (v.take n)).1, .at (h.newDims (v.take n)).2)
      | .at b => do
        let h ← h.freeDims b
        return ((h.newDims (v.take n)).1, .at (h.newDims (v.take n)).2)
    else
      match o.dims with
      | .at b => match h.dims b with
        | none => .ub
        | some w => if w.length < n then .ub else .ok (h.putDims b (v.take n ++ w.drop n), .at b)
      | _ => .ub

/-- The same with the sizes of `s` (L458-467); without any the own pointer is set to `NULL`. -/
def dimsFrom (h : Heap) (o s : Obj) (n : Nat) : Res (Heap × DPtr) :=
  match s.dims with
  | .junk => .ub
  | .null => .ok (h, .null)
  | .at a => match h.dims a with
    | none => .ub
    | some v => if v.length < n then .ub else copyDims h o n v

/-- `*o = *s` (L448-487); `same`: both are one object, so that what is done to one is done to the other. -/
def assign (h : Heap) (o s : Obj) (same : Bool) : Res (Heap × Obj) := do
  let h ← dropBoxes h o
  let s := if same then { s with deep := false } else s
  match s.ndim with
  | none => .ub
  | some n => do
    let hd ← dimsFrom h o s n
    if s.deep then
      if s.nsel = 0 then .ok (hd.1, ⟨some n, 0, hd.2, none, false⟩) else do
      let v ← boxesOf hd.1 s
      let v ← coords n v
      return ((hd.1.newBoxes v).1, ⟨some n, s.nsel, hd.2, some (hd.1.newBoxes v).2, true⟩)
    else .ok (hd.1, ⟨some n, s.nsel, hd.2, s.boxes, false⟩)

/-- The copy constructor (L160-163): only `sels_arr` is set before the assignment. -/
def copyNew (h : Heap) (s : Obj) (nsel : Nat) (boxes : Option Nat) : Res (Heap × Obj) :=
  assign h ⟨none, nsel, .junk, boxes, false⟩ s false

/-- `operator==` (L490-503); the coordinates behind the first difference, which are not looked at, are asked to be there. -/
def equal (h : Heap) (o s : Obj) : Res Bool :=
  match o.ndim, s.ndim with
  | some n, some n' =>
    if n ≠ n' ∨ o.nsel ≠ s.nsel then .ok false else do
    let v ← boxesOf h o
    let w ← boxesOf h s
    let v ← coords n v
    let w ← coords n w
    return decide (v = w)
  | _, _ => .ub

/-- `convert_to_deep` (L531-549). -/
def toDeep (h : Heap) (o : Obj) : Res (Heap × Obj) :=
  if o.deep then .ok (h, o) else
  if o.nsel = 0 then .ok (h, { o with boxes := none }) else
  match o.ndim with
  | none => .ub
  | some n => do
  let v ← boxesOf h o
  let v ← coords n v
  return ((h.newBoxes v).1, { o with boxes := some (h.newBoxes v).2, deep := true })

/-- The dimension sizes are released (L440). -/
def dropDims (h : Heap) (o : Obj) : Res Heap :=
  match o.dims with
  | .junk => .ub
  | .null => .ok h
  | .at a => h.freeDims a

/-- The destructor (L439-446). -/
def destroy (h : Heap) (o : Obj) : Res Heap := do
  let h ← dropDims h o
  dropBoxes h o

/-- The constructor from arrays of blocks (L139-158): the dimension sizes are copied, the arrays are not.  The constructor without
arguments (L137) is `make h 0 none 0 none`. -/
def make (h : Heap) (n : Nat) (v : Option (List Nat)) (nsel : Nat) (boxes : Option Nat) : Res (Heap × Obj) :=
  match v with
  | none => .ok (h, ⟨some n, nsel, .null, boxes, false⟩)
  | some v =>
    if v.length < n then .ub else .ok ((h.newDims (v.take n)).1, ⟨some n, nsel, .at (h.newDims (v.take n)).2, boxes, false⟩)

/-- Statements about the variables of a program. -/
inductive Stmt
  | make (i n : Nat) (v : Option (List Nat)) (nsel : Nat) (boxes : Option Nat)
  | assign (i j : Nat)
  | deep (i : Nat)
  | destroy (i : Nat)

/-- Memory and variables. -/
structure World where
  heap : Heap
  vars : Nat → Option Obj

def World.set (w : World) (i : Nat) (h : Heap) (o : Option Obj) : World := ⟨h, fun k => if k = i then o else w.vars k⟩

/-- One statement; those about variables that do not exist, or exist already, are no program (`err`). -/
def World.step (w : World) : Stmt → Res World
  | .make i n v nsel boxes =>
    match w.vars i with
    | some _ => .err
    | none => (make w.heap n v nsel boxes).bind fun r => .ok (w.set i r.1 (some r.2))
  | .assign i j =>
    match w.vars i, w.vars j with
    | some o, some s => (assign w.heap o s (i = j)).bind fun r => .ok (w.set i r.1 (some r.2))
    | _, _ => .err
  | .deep i =>
    match w.vars i with
    | some o => (toDeep w.heap o).bind fun r => .ok (w.set i r.1 (some r.2))
    | none => .err
  | .destroy i =>
    match w.vars i with
    | some o => (destroy w.heap o).bind fun h => .ok (w.set i h none)
    | none => .err

def World.run (w : World) : List Stmt → Res World
  | [] => .ok w
  | s :: ss => (w.step s).bind fun w => w.run ss

end Verif.Copies
