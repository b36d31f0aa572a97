import Verif.Model.Atts

/-
Attributes as the connector writes them.
-/

namespace Verif.Atts.Spec

/-- A dataset that the application sees under its name: the name does not start with a dot, and with no underscore or two. -/
def shown (d : Ds) : Bool :=
  match d.name with
  | [] => false
  | ['_'] => false
  | '_' :: c :: _ => c == '_'
  | c :: _ => c != '/' && c != '.'

/-- Its attributes: one number, at most 32 sizes and as many largest ones, at least one size with selection encoding. -/
def Sound (enc : Bool) (count : Int) (d : Ds) : Prop :=
  ∃ i dims mdims, d.id = some [i] ∧ d.dims = some dims ∧ d.mdims = some mdims ∧ 0 ≤ i ∧ i < count ∧ dims.length ≤ 32 ∧
    mdims.length = dims.length ∧ (enc = true → dims ≠ [])

/-- What they say. -/
def described (d : Ds) : Info := ⟨d.typ, d.dims.getD [], d.mdims.getD []⟩

/-- The first dataset with a number. -/
def firstWith (ds : List Ds) (i : Int) : Option Ds := ds.find? (fun d => d.id == some [i])

/-- A log-based file without subfiles with these values in its attribute, in which no two datasets have the same name. -/
def Base (f : File) (count nmd : Int) (enc : Bool) : Prop :=
  f.fails = false ∧ f.log = true ∧ 0 ≤ count ∧ (f.objs.map (·.name)).Nodup ∧ (∀ d ∈ f.objs, d.name ≠ []) ∧
  ∃ nl cf ng, f.att = some [count, nl, nmd, cf, ng] ∧ bit cf 9 = false ∧ bit cf 1 = enc

/-- The datasets before one of them are as the connector writes them. -/
def SoundBefore (f : File) (nd nm : Int) (enc : Bool) (pre : List Ds) (d : Ds) (post : List Ds) : Prop :=
  Base f nd nm enc ∧ f.objs = pre ++ d :: post ∧ (∀ e ∈ pre, shown e = true → Sound enc nd e) ∧ shown d = true

end Verif.Atts.Spec
