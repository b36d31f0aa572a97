import Verif.Model.Copies

/-
Selections that are in order, and objects that share nothing.
-/

namespace Verif.Copies

/-- An object in order: it was initialised, its dimension sizes and blocks are there, and nothing lies beyond the next free address. -/
structure Sound (h : Heap) (o : Obj) (n : Nat) (bs : List Box) : Prop where
  ndim : o.ndim = some n
  dims : o.dims = .null ∨ ∃ a v, o.dims = .at a ∧ h.dims a = some v ∧ n ≤ v.length ∧ a < h.next
  long : ∀ b ∈ bs, b.1.length = n ∧ b.2.length = n
  nsel : o.nsel = bs.length
  boxes : bs = [] ∧ o.deep = false ∨ bs ≠ [] ∧ ∃ a, o.boxes = some a ∧ h.boxes a = some bs ∧ a < h.next

/-- What one object owns the other does not use. -/
def Apart (o s : Obj) : Prop :=
  (∀ a, o.dims = .at a → s.dims ≠ .at a) ∧ (o.deep = true → s.boxes ≠ o.boxes) ∧ (s.deep = true → s.boxes ≠ o.boxes)

/-- The dimension sizes that an object tells. -/
def dimsOf (h : Heap) (o : Obj) : Option (List Nat) :=
  match o.dims, o.ndim with
  | .at a, some n => (h.dims a).map (·.take n)
  | _, _ => none

/-! ### Programs over values -/

/-- A selection as a value: rank, dimension sizes if any, blocks. -/
structure Val where
  rank : Nat
  sizes : Option (List Nat)
  blocks : List Box
deriving DecidableEq

/-- What a statement means if selections are values; `user`: the arrays of the application, which stay as they are.  `none`: not
considered (no program, arrays that do not exist, an object assigned to itself, and sizes assigned to an object of at least the same
rank that has none). -/
def meaning (user : Nat → Option (List Box)) (vals : Nat → Option Val) : Stmt → Option (Nat → Option Val)
  | .make i n v nsel boxes =>
    if vals i = none ∧ (∀ l, v = some l → l.length = n) then
      match boxes with
      | none => if nsel = 0 then some fun k => if k = i then some ⟨n, v, []⟩ else vals k else none
      | some a => match user a with
        | none => none
        | some bs =>
          if bs ≠ [] ∧ nsel = bs.length ∧ (∀ b ∈ bs, b.1.length = n ∧ b.2.length = n) then
            some fun k => if k = i then some ⟨n, v, bs⟩ else vals k
          else none
    else none
  | .assign i j =>
    match vals i, vals j with
    | some x, some y =>
      if i ≠ j ∧ (y.sizes = none ∨ x.rank < y.rank ∨ x.sizes ≠ none) then some fun k => if k = i then some y else vals k else none
    | _, _ => none
  | .deep i => if vals i = none then none else some vals
  | .destroy i => if vals i = none then none else some fun k => if k = i then none else vals k

def meanings (user : Nat → Option (List Box)) (vals : Nat → Option Val) : List Stmt → Option (Nat → Option Val)
  | [] => some vals
  | s :: ss => (meaning user vals s).bind fun vals => meanings user vals ss

/-- A variable holds a value. -/
def Shows (h : Heap) : Option Obj → Option Val → Prop
  | none, none => True
  | some o, some x => Sound h o x.rank x.blocks ∧ dimsOf h o = x.sizes
  | _, _ => False

end Verif.Copies
