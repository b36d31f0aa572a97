import Verif.Model.Lookup

/-
The place of the log among the links of the root group.
-/

namespace Verif.Spec

/-- A name that comes before all names that start with an underscore. -/
def early (c : Name) : Bool := match c with | [] => true | a :: _ => decide (a.toNat < 95)

/-- The index of the log in the root group of a log-based file with these names: it was created first; in the order of names
it comes after the early ones. -/
def hiddenAt (names : List Name) : TOrder → Bool → Nat
  | .created, false => 0
  | .created, true => names.length
  | .name, false => (names.filter early).length
  | .name, true => names.length - (names.filter early).length

/-- The names of the links of a group. -/
def namesIn (t : Tree) (g : Nat) : List Name := (t.links.filter (fun l => l.group = g)).map (·.name)

/-- A handle and a path that lead to a group. -/
def LeadsTo (s : TState) (h : Nat) (p : Name) (g : Nat) : Prop :=
  ∃ loc, s.at h = .ok loc ∧ s.tree.find loc p = some g ∧ s.tree.kind g = some .group

/-- What an operation tells. -/
def told (r : Res (TState × TOut)) : Res TOut := match r with | .ok x => .ok x.2 | .err => .err | .ub => .ub

end Verif.Spec
