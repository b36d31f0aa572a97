import Verif.Model.Names

/-
Specification vocabulary for names.
-/

namespace Verif.Spec

/-- What the mapping of a path should be: every component that starts with an underscore gets another one.  The flag tells
that a component starts. -/
def escapePath : Bool → Name → Name
  | _, [] => []
  | true, c :: r =>
    if c = '_' then '_' :: '_' :: escapePath false r else c :: escapePath (decide (c = '/')) r
  | false, c :: r => c :: escapePath (decide (c = '/')) r

/-- Components of a path. -/
def components (p : Name) : List Name := p.splitOn '/'

/-- A component that only internal objects have: one underscore at the front. -/
def Reserved (c : Name) : Prop := c.head? = some '_' ∧ c.tail.head? ≠ some '_'

/-- A component after the first character of the path starts with an underscore. -/
def InnerUnderscore (p : Name) : Prop := ['/', '_'] <:+: p

end Verif.Spec
