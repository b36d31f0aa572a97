import Verif.Model.Extent
import Verif.Model.Filter
import Verif.Model.Names

/-
What a dataset says about itself: `H5VL_log_dataset_create` (src/H5VL_log_dataset.cpp L54-221), `H5VL_log_dataset_open`
(L234-273), `H5VL_log_dataseti_open` (src/H5VL_log_dataseti.cpp L689-761), `H5VL_log_dataset_get`
(src/H5VL_log_dataset.cpp L431-490), `H5VL_DATASET_SET_EXTENT` (L522-556), `H5VL_log_dataset_close` (L665-711), with the
attribute helpers of src/H5VL_logi_util.cpp L21-50, L62-83, L84-109, L147-170 and src/H5VL_logi_wrapper.hpp L47-98.

Calls into the library below succeed (C70 is about those that fail).  Names have one component and do not start with an
underscore (C31, C59).  Contract of the native VOL used here:
* the filters of a property list are stored with a dataset only if its layout is chunked (the comment in
  src/H5VL_log_dataset.cpp L109 says the same);
* while a dataset is open, all handles to it share the property list it was created or first opened with.
The number of a dataset (`_ID`) is its position in `anchors` (C39).
-/

namespace Verif.Dset

/-- Storage layout in a creation property list. -/
inductive Layout where
  | contiguous
  | compact
  | chunked (chunk : List Nat)
deriving DecidableEq, Repr

/-- Fill value in a creation property list (`H5D_fill_value_t`). -/
inductive Fill where
  | undefined
  | default
  | value (bs : List Byte)
deriving DecidableEq, Repr

/-- A dataset creation property list. -/
structure DCpl where
  layout : Layout
  filters : List FilterId
  fill : Fill
deriving DecidableEq, Repr

/-- A dataspace. -/
inductive Space where
  | null
  | scalar
  | simple (dims : List Nat) (max : List (Option Nat))
deriving DecidableEq, Repr

/-- A datatype: which one, its size, and whether it is a string of variable length. -/
structure DType where
  code : Nat
  size : Nat
  varStr : Bool
deriving DecidableEq, Repr

/-- A dataset in the file: type and property list of the anchor dataset, attributes `_dims` and `_mdims`. -/
structure Anchor where
  name : Name
  ty : DType
  dcpl : DCpl
  dims : List Nat
  mdims : List (Option Nat)
deriving DecidableEq, Repr

/-- `H5VL_log_dset_info_t` (src/H5VL_log_dataset.hpp L29-38). -/
structure Info where
  ty : DType
  dims : List Nat
  mdims : List (Option Nat)
  filters : List FilterId
  fill : Option (List Byte)
deriving DecidableEq, Repr

/-- A dataset handle: number of the dataset, and the property list that the native VOL keeps for the open dataset. -/
structure Handle where
  id : Nat
  dcpl : DCpl
deriving DecidableEq, Repr

/-- The property lists of the application, the file, `fp->dsets_info`, and the handles given out. -/
structure St where
  plists : List DCpl
  anchors : List Anchor
  infos : List (Option Info)
  handles : List (Option Handle)
deriving DecidableEq, Repr

/-- A new file. -/
def St.new (plists : List DCpl) : St := ⟨plists, [], [], []⟩

/-- `H5Sget_simple_extent_dims`: nothing for a scalar and for a null dataspace. -/
def Space.extent : Space → List Nat × List (Option Nat)
  | .null => ([], [])
  | .scalar => ([], [])
  | .simple d m => (d, m)

/-- `H5Screate_simple`: rank 0 gives a scalar dataspace. -/
def createSimple (dims : List Nat) (mdims : List (Option Nat)) : Space :=
  if dims = [] then .scalar else .simple dims mdims

/-- What the native VOL stores of a property list. -/
def DCpl.stored (p : DCpl) : DCpl :=
  match p.layout with
  | .chunked _ => p
  | _ => { p with filters := [] }

/-- `H5Pfill_value_defined` and `H5Pget_fill_value` (src/H5VL_log_dataset.cpp L136-144). -/
def DCpl.fillBytes (p : DCpl) (size : Nat) : Option (List Byte) :=
  match p.fill with
  | .undefined => none
  | .default => some (List.replicate size 0)
  | .value bs => some bs

/-- The entry made for a dataset that is opened (src/H5VL_log_dataseti.cpp L716-755).  The radix table of a dataset without
dimensions is written out of bounds (L732). -/
def buildInfo (enc : Bool) (a : Anchor) (p : DCpl) : Res Info :=
  if enc ∧ a.dims = [] then .ub else .ok ⟨a.ty, a.dims, a.mdims, p.filters, p.fillBytes a.ty.size⟩

inductive Op where
  | create (name : Name) (ty : DType) (sp : Space) (plist : Nat)
  | open (name : Name)
  | close (h : Nat)
  | setExtent (h : Nat) (new : List Nat)
  | getSpace (h : Nat)
  | getType (h : Nat)
  | getCreate (h : Nat)
  | getStorage (h : Nat)
  | getStatus (h : Nat)
  | getFill (h : Nat)
  | getFilters (h : Nat)
  | getLayout (plist : Nat)
  | reopen
deriving DecidableEq, Repr

inductive Out where
  | failed
  | done
  | handle (h : Nat)
  | space (s : Space)
  | type (t : DType)
  | dcpl (p : DCpl)
  | size (n : Nat)
  | fill (f : Option (List Byte))
  | filters (fs : List FilterId)
  | layout (l : Layout)
deriving DecidableEq, Repr

/-- The handle, if it is valid. -/
def St.handle (st : St) (h : Nat) : Option Handle := (st.handles[h]?).join

/-- `H5VL_log_dataset_create` (L54-221).  The property list of the application is changed before anything else can fail
(L110). -/
def St.create (enc : Bool) (name : Name) (ty : DType) (sp : Space) (pl : Nat) (st : St) : Res (St × Out) :=
  if ty.varStr then .ok (st, .failed) else
  match st.plists[pl]? with
  | none => .ok (st, .failed)
  | some p =>
    let p : DCpl := { p with layout := .contiguous }
    let st : St := { st with plists := st.plists.set pl p }
    if st.anchors.any (fun a => a.name == name) then .ok (st, .failed)
    else if enc ∧ sp.extent.1 = [] then .ub
    else .ok ({ st with
        anchors := st.anchors ++ [⟨name, ty, p.stored, sp.extent.1, sp.extent.2⟩]
        infos := st.infos ++ [some ⟨ty, sp.extent.1, sp.extent.2, p.filters, p.fillBytes ty.size⟩]
        handles := st.handles ++ [some ⟨st.anchors.length, p⟩] },
      .handle st.handles.length)

/-- The property list of an open dataset: the one of an open handle, otherwise the one in the file. -/
def St.shared (st : St) (id : Nat) (a : Anchor) : DCpl :=
  ((st.handles.find? (fun h => h.any (fun x => x.id == id))).join.map Handle.dcpl).getD a.dcpl

/-- `H5VL_log_dataset_open` (L234-273) and `H5VL_log_dataseti_open`. -/
def St.open (enc : Bool) (name : Name) (st : St) : Res (St × Out) :=
  match st.anchors.findIdx? (fun a => a.name == name) with
  | none => .ok (st, .failed)
  | some id =>
    match st.anchors[id]?, st.infos[id]? with
    | some a, some (some _) =>
      .ok ({ st with handles := st.handles ++ [some ⟨id, st.shared id a⟩] }, .handle st.handles.length)
    | some a, some none => do
      let i ← buildInfo enc a (st.shared id a)
      return ({ st with infos := st.infos.set id (some i), handles := st.handles ++ [some ⟨id, st.shared id a⟩] },
        .handle st.handles.length)
    | _, _ => .ub

/-- `H5VL_DATASET_SET_EXTENT` (L522-556); the attribute is written. -/
def St.setExtent (enc : Bool) (h : Nat) (new : List Nat) (st : St) : Res (St × Out) :=
  match st.handle h with
  | none => .ok (st, .failed)
  | some x =>
    match (st.infos[x.id]?).join with
    | none => .ub
    | some i =>
      if new.length < i.dims.length then .ub else
      let r := extentLoop i.mdims new i.dims
      let st' : St := { st with infos := st.infos.set x.id (some { i with dims := r.2 }) }
      if !r.1 then .ok (st', .failed)
      else if enc ∧ r.2 = [] then .ub
      else .ok ({ st' with anchors := st.anchors.modify x.id (fun a => { a with dims := r.2 }) }, .done)

/-- A query about a handle. -/
def St.ask (st : St) (h : Nat) (f : Handle → Info → Out) : Res (St × Out) :=
  match st.handle h with
  | none => .ok (st, .failed)
  | some x =>
    match (st.infos[x.id]?).join with
    | none => .ub
    | some i => .ok (st, f x i)

/-- Opening all datasets when the file is opened (`H5VL_log_filei_dset_visit`, src/H5VL_log_filei.cpp L186-197, L293-330); names that
start with a dot are skipped. -/
def visit (enc : Bool) : List Anchor → Res (List (Option Info))
  | [] => .ok []
  | a :: as => do
    let i ← if a.name.head? = some '.' then (.ok none : Res (Option Info)) else (buildInfo enc a a.dcpl).bind fun i => .ok (some i)
    let is ← visit enc as
    return i :: is

/-- One call.  `getFill` and `getFilters` stand for what reads and writes of the dataset use. -/
def St.step (enc : Bool) (st : St) : Op → Res (St × Out)
  | .create n t s p => st.create enc n t s p
  | .open n => st.open enc n
  | .close h =>
    match st.handle h with
    | none => .ok (st, .failed)
    | some _ => .ok ({ st with handles := st.handles.set h none }, .done)
  | .setExtent h new => st.setExtent enc h new
  | .getSpace h => st.ask h fun _ i => .space (createSimple i.dims i.mdims)
  | .getType h =>
    match st.handle h with
    | none => .ok (st, .failed)
    | some x => .ok (st, ((st.anchors[x.id]?).map (fun a => Out.type a.ty)).getD .failed)
  | .getCreate h => st.ask h fun x _ => .dcpl x.dcpl
  | .getStorage h => st.ask h fun _ _ => .failed
  | .getStatus h => st.ask h fun _ _ => .failed
  | .getFill h => st.ask h fun _ i => .fill i.fill
  | .getFilters h => st.ask h fun _ i => .filters i.filters
  | .getLayout p => .ok (st, ((st.plists[p]?).map (fun p => Out.layout p.layout)).getD .failed)
  | .reopen => do
    let is ← visit enc st.anchors
    return ({ st with infos := is, handles := st.handles.map (fun _ => none) }, .done)

/-- Successive calls and what they return. -/
def St.run (enc : Bool) : St → List Op → Res (St × List Out)
  | st, [] => .ok (st, [])
  | st, op :: ops => do
    let r ← st.step enc op
    let q ← r.1.run enc ops
    return (q.1, r.2 :: q.2)

end Verif.Dset
