import Verif.Model.Names

/-
What h5lreplay copies before it replays the data: objects and attributes (utils/h5lreplay/h5lreplay_copy.cpp,
utils/h5lreplay/h5lreplay.cpp L212-223).  Both files are opened with the native VOL, so names are stored names.

A path is the list of its components.  `H5Ovisit3` reports the objects below the root once each, every group before its
members, with the path joined by `/`; the root itself is reported as `.` and skipped.  The tests of the code on the first
characters of the joined path are tests on the first component (`_` alone is followed by `/` or the end, not by `_`).
Further hard links and soft links are not reported by `H5Ovisit3`.  Values of attributes are opaque; opening a path does not
follow such further links.
-/

namespace Verif

abbrev Path := List Name

abbrev Attrs := List (Name × List Byte)

/-- Kind of an object. For a dataset: the values of its attributes `_ID` and `_dims`, its maximal dimensions, and its type. -/
inductive OKind where
  | group
  | dset (id : Nat) (dims : List Nat) (mdims : List (Option Nat)) (ty : Nat)
  | other (ty : Nat)
deriving DecidableEq, Repr

structure OEnt where
  path : Path
  kind : OKind
  attrs : Attrs
deriving DecidableEq, Repr

/-- A file as the native VOL sees it: attributes of the root, objects in the order of the visit, links that are not the
reported path of an object. -/
structure NFile where
  root : Attrs
  objs : List OEnt
  links : List Path
deriving DecidableEq, Repr

/-- Output file and table of datasets (`argp->dsets`: where the dataset with a given number is). -/
structure CopySt where
  out : NFile
  dsets : List (Option Path)
deriving DecidableEq, Repr

/-- Path under which the handler opens and creates an object, `none` if it is skipped (h5lreplay_copy.cpp L37-47; the same
tests as in `H5VL_log_filei_dset_visit`). -/
def visitPath : Path → Option Path
  | [] => none
  | c :: cs => (visitName c).map (· :: cs)

def findEnt (objs : List OEnt) (p : Path) : Option OEnt := objs.find? (fun e => decide (e.path = p))

/-- A new object in the output file: the path must be free, and its parent a group. -/
def mayCreate (out : List OEnt) (p : Path) : Bool :=
  (findEnt out p).isNone && (p.dropLast.isEmpty || (findEnt out p.dropLast).any (fun e => decide (e.kind = .group)))

/-- `h5lreplay_attr_copy_handler` (L165-243) for each attribute. -/
def copyAttrs : Attrs → Attrs → Res Attrs
  | [], acc => .ok acc
  | (n, v) :: r, acc => match visitName n with
    | none => copyAttrs r acc
    | some m => if acc.any (fun a => decide (a.1 = m)) then .err else copyAttrs r (acc ++ [(m, v)])

/-- `h5lreplay_copy_handler` (L22-163) for one object. `H5Ocopy` (L145) copies the object with everything below it. -/
def copyObj (src : NFile) (st : CopySt) (e : OEnt) : Res CopySt :=
  match visitPath e.path with
  | none => .ok st
  | some p => match e.kind with
    | .dset _ _ _ _ => match findEnt src.objs p with
      | some ⟨_, .dset id dims _ ty, atts⟩ =>
        if mayCreate st.out.objs p then
          if id < st.dsets.length then
            (copyAttrs atts []).bind (fun a => .ok ⟨{ st.out with objs := st.out.objs ++
              [⟨p, .dset id dims (dims.map some) ty, a⟩] }, st.dsets.set id (some p)⟩)
          else .ub
        else .err
      | _ => .err
    | .group => match findEnt src.objs p with
      | some ⟨_, .group, atts⟩ =>
        if mayCreate st.out.objs p then
          (copyAttrs atts []).bind (fun a => .ok { st with out := { st.out with objs := st.out.objs ++ [⟨p, .group, a⟩] } })
        else .err
      | _ => .err
    | .other _ => match findEnt src.objs p with
      | some _ =>
        if mayCreate st.out.objs p then
          .ok { st with out := { st.out with objs := st.out.objs ++ src.objs.filter (fun x => p.isPrefixOf x.path) } }
        else .err
      | none => .err

def copyObjs (src : NFile) : List OEnt → CopySt → Res CopySt
  | [], st => .ok st
  | e :: es, st => (copyObj src st e).bind (copyObjs src es)

/-- `h5lreplay_core` L212-223, with the number of datasets from the file attribute. -/
def replayCopy (src : NFile) (ndset : Nat) : Res CopySt :=
  (copyAttrs src.root []).bind (fun a => copyObjs src src.objs ⟨⟨a, [], []⟩, List.replicate ndset none⟩)

end Verif
