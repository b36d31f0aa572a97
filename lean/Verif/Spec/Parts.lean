import Verif.Model.File

/-
Metadata loaded part by part.
-/

namespace Verif.Spec

/-- From one place (metadata dataset and section) to another the parts `bs` are loaded, whatever they contain. -/
inductive LoadsTo (disk : Mem) (mds : List Ext) (lim : Nat) : Nat × Nat → List (List Byte) → Nat × Nat → Prop
  | here (pos : Nat × Nat) : LoadsTo disk mds lim pos [] pos
  | part {pos pos' pos'' : Nat × Nat} {b : List Byte} {bs : List (List Byte)} :
      loadPart disk mds lim pos.1 pos.2 = .ok (b, some pos') → LoadsTo disk mds lim pos' bs pos'' →
      LoadsTo disk mds lim pos (b :: bs) pos''

end Verif.Spec
