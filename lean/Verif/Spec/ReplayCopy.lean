import Verif.Model.ReplayCopy

/-
What a user sees of a stored file: names are given by the user, one underscore is put before those that begin with one, and
other names that begin with an underscore belong to the connector.
-/

namespace Verif.Spec

/-- The name given by the user; none for objects of the connector. -/
def userName : Name → Option Name
  | '_' :: '_' :: r => some ('_' :: r)
  | '_' :: _ => none
  | n => some n

def userPath (p : Path) : Option Path := p.mapM userName

def userAttrs (a : Attrs) : Attrs := a.filterMap (fun x => (userName x.1).map (fun n => (n, x.2)))

def userObj (e : OEnt) : Option OEnt := (userPath e.path).map (fun p => ⟨p, e.kind, userAttrs e.attrs⟩)

/-- All objects and attributes of the file as the user knows them. -/
def userFile (f : NFile) : NFile := ⟨userAttrs f.root, f.objs.filterMap userObj, f.links.filterMap userPath⟩

/-- A file as the native VOL produces it: paths are distinct and not empty, a group comes before its members, attribute names
are distinct, dataset numbers are distinct and below the number of datasets. -/
structure FileWF (f : NFile) (ndset : Nat) : Prop where
  nodup : (f.objs.map OEnt.path).Nodup
  nonempty : ∀ e ∈ f.objs, e.path ≠ [] ∧ ∀ c ∈ e.path, c ≠ [] ∧ '/' ∉ c
  parent : ∀ pre e post, f.objs = pre ++ e :: post → e.path.dropLast ≠ [] →
    ∃ g ∈ pre, g.path = e.path.dropLast ∧ g.kind = .group
  root : (f.root.map Prod.fst).Nodup
  attrs : ∀ e ∈ f.objs, (e.attrs.map Prod.fst).Nodup
  ids : ∀ e ∈ f.objs, ∀ i d m t, e.kind = .dset i d m t → i < ndset
  ids2 : f.objs.Pairwise (fun e e' => ∀ i d m t i' d' m' t', e.kind = .dset i d m t → e'.kind = .dset i' d' m' t' → i ≠ i')

end Verif.Spec
