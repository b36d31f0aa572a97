import Verif.Model.Plain

/-
What an application sees that uses the connector below directly: every call with open handles is answered by it, objects that it
returns can be used until they are closed, and the arguments stay as they are.
-/

namespace Verif.Plain

/-- The handles a call uses. -/
def Call.uses : Call → List Nat
  | .plain _ o _ _ | .attrCreate o _ _ _ | .attrOpen o _ _ | .attrInfo o _ | .attrName o _ | .dsetCreate o _ _ _ _ | .dsetOpen o _ _
  | .groupCreate o _ _ _ | .groupOpen o _ _ | .typeCommit o _ _ _ | .typeOpen o _ _ | .objOpen o _ | .objInfo o _
  | .fileAccess o | .close o => [o]
  | .linkCopy a b _ _ _ | .linkMove a b _ _ _ => a.toList ++ b.toList
  | .objCopy a b _ _ _ | .mount a b _ _ => [a, b]

/-- The first location of a call. -/
def Call.loc : Call → Loc
  | .plain _ _ l _ | .attrCreate _ l _ _ | .attrOpen _ l _ | .attrInfo _ l | .attrName _ l | .dsetCreate _ l _ _ _ | .dsetOpen _ l _
  | .groupCreate _ l _ _ | .groupOpen _ l _ | .typeCommit _ l _ _ | .typeOpen _ l _ | .objOpen _ l | .objInfo _ l
  | .linkCopy _ _ l _ _ | .linkMove _ _ l _ _ | .objCopy _ _ l _ _ => l
  | .mount .. | .fileAccess _ | .close _ => .self

/-- The call returns an object. -/
def Call.opens : Call → Bool
  | .attrCreate .. | .attrOpen .. | .dsetCreate .. | .dsetOpen .. | .groupCreate .. | .groupOpen .. | .typeCommit .. | .typeOpen ..
  | .objOpen .. => true
  | _ => false

/-- The call is H5Dcreate or H5Dopen. -/
def Call.onDset : Call → Bool
  | .dsetCreate .. | .dsetOpen .. => true
  | _ => false

/-- The connector below, and what has been opened: the handles, their types, and whether H5Dcreate or H5Dopen returned them. -/
structure Direct (σ : Type) where
  below : σ
  opened : List (Nat × Typ × Bool)

/-- The type of an open handle. -/
def Direct.typ {σ : Type} (d : Direct σ) (o : Nat) : Option (Typ × Bool) :=
  (d.opened.find? (fun h => h.1 == o)).map (·.2)

/-- A call made directly. -/
def Direct.step {σ : Type} (U : Under σ) (d : Direct σ) (c : Call) : Direct σ × Out :=
  if c.uses.all (fun o => (d.typ o).isSome) then
    let r := U.step d.below c
    let opened := match c, r.2 with
      | .close _, .failed => d.opened
      | .close o, _ => d.opened.filter (fun h => h.1 != o)
      | c, .obj o t => if c.opens then (o, t, c.onDset) :: d.opened else d.opened
      | _, _ => d.opened
    (⟨r.1, opened⟩, ⟨r.2, c.loc⟩)
  else (d, ⟨.failed, c.loc⟩)

/-- Successive calls made directly. -/
def Direct.run {σ : Type} (U : Under σ) : Direct σ → List Call → Direct σ × List Out
  | d, [] => (d, [])
  | d, c :: cs =>
    let r := d.step U c
    let q := r.1.run U cs
    (q.1, r.2 :: q.2)

/-- Files and datasets. -/
def Typ.special : Typ → Bool
  | .file | .dataset => true
  | _ => false

/-- An index that fits. -/
def Loc.fits : Loc → Prop
  | .idx n _ => n < 2 ^ 64
  | _ => True

/-- The location is an index. -/
def Loc.isIdx : Loc → Bool
  | .idx .. => true
  | _ => false

/-- Queries of attributes do not change what is stored below. -/
def Under.Quiet {σ : Type} (U : Under σ) : Prop :=
  ∀ s o l, (U.step s (.attrInfo o l)).1 = s ∧ (U.step s (.attrName o l)).1 = s

/-- The calls that come through as they should, in a session of the file `f`; `lost` says whether an H5Dopen has failed:
* attributes are not opened or asked by index through a file or dataset, nor is their creation order asked, nor the number of attributes;
* datasets of strings of variable length are not created;
* both sides of H5Lmove are given;
* no file is mounted;
* the access property list is not asked;
* datasets opened by H5Oopen are not closed;
* the file is closed last and can be closed, and no H5Dopen has failed before. -/
def Call.Harmless {σ : Type} (U : Under σ) (f : Nat) (d : Direct σ) (lost : Bool) : Call → Prop
  | .attrOpen o l _ => l.isIdx = true → ∀ h, d.typ o = some h → h.1.special = false
  | .attrInfo o l => l.fits ∧ ∀ h, d.typ o = some h → h.1.special = false
  | .attrName o l => l.fits ∧ (l.isIdx = true → ∀ h, d.typ o = some h → h.1.special = false)
  | .objInfo o _ => ∀ h, d.typ o = some h → h.1.special = false
  | .dsetCreate _ _ _ v _ => v = false
  | .linkMove a b _ _ _ => a.isSome = true ∧ b.isSome = true
  | .mount a b _ _ => d.typ a = none ∨ d.typ b = none
  | .fileAccess o => d.typ o = none
  | .close o => ∀ h, d.typ o = some h →
      (h.1 = .dataset → h.2 = true) ∧
      (h.1 = .file → o = f ∧ lost = false ∧ d.opened.length = 1 ∧ (U.step d.below (.close o)).2 = .done 0) ∧
      (h.1 ≠ .file → d.opened.any (fun k => k.1 != o) = true)
  | _ => True

/-- A session of harmless calls. -/
def Harmless {σ : Type} (U : Under σ) (f : Nat) : Direct σ → Bool → List Call → Prop
  | _, _, [] => True
  | d, lost, c :: cs =>
    c.Harmless U f d lost ∧ Harmless U f (d.step U c).1 (lost || (match c with | .dsetOpen .. => (d.step U c).2.ret == .failed | _ => false)) cs

end Verif.Plain
