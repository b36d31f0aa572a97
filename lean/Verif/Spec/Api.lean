import Verif.Model.Api
import Verif.Spec.Select

/-
What H5Dwrite and H5Dread do according to the HDF5 documentation: element number `i` of the file selection and element number `i` of
the memory selection belong together.
-/

namespace Verif.Spec

/-- Position of a cell in an array of shape `dims` stored row-major. -/
def rowIdx (dims x : List Nat) : Nat := idxIn ⟨List.replicate dims.length 0, dims⟩ x

/-- `as` are the addresses of the elements selected in memory, in order. `ubuf` is the user buffer, `e` the element size, `xs` the
selected cells of the file, and `dims` the extent of the dataspace of the file. `H5S_BLOCK`: the elements are contiguous. `H5S_ALL`: the
dataspace of the file, with its selection, serves as that of memory. -/
def MemAt (e ubuf : Nat) (dims : List Nat) (xs : List (List Nat)) : MArg → List Nat → Prop
  | .block, as => as = (List.range xs.length).map (fun i => ubuf + e * i)
  | .all, as => (∀ x ∈ xs, List.Forall₂ (· < ·) x dims) ∧ as = xs.map (fun x => ubuf + e * rowIdx dims x)
  | .space mdims sel, as => ∃ ys, Chosen mdims.length sel ys ∧ (∀ y ∈ ys, List.Forall₂ (· < ·) y mdims) ∧ ys.length = xs.length ∧
      as = ys.map (fun y => ubuf + e * rowIdx mdims y)

/-- A dataspace in memory: everything is selected, or the selection is a supported one. -/
def SpaceOK (dims : List Nat) (sel : H5Sel) : Prop :=
  sel = .all dims ∨ ((∀ n, sel ≠ .all n) ∧ dims ≠ [] ∧ (∀ n ∈ dims, n < 2 ^ 31) ∧ Supported dims.length sel)

/-- The dataspace of the file: `H5S_ALL` stands for the extent of the dataset with all elements selected. -/
def fileSpace (d : DInfo) : FArg → List Nat × H5Sel
  | .all => (d.dims, .all d.dims)
  | .space dims sel => (dims, sel)

/-- Arguments of a transfer of the cells `xs` of a dataset `d`, from or to the addresses `as`. -/
structure Xfer (d : DInfo) (f : FArg) (m : MArg) (ubuf : Nat) (xs : List (List Nat)) (as : List Nat) : Prop where
  chosen : Chosen d.ndim (fileSpace d f).2 xs
  supp : Supported d.ndim (fileSpace d f).2
  within : ∀ x ∈ xs, List.Forall₂ (· < ·) x d.dims
  dims : ∀ n ∈ d.dims, n < 2 ^ 31
  es : 0 < d.esize
  mem : MemAt d.esize ubuf (fileSpace d f).1 xs m as
  ok : match m with
    | .block => True
    | .all => (fileSpace d f).1.length = d.ndim ∧ SpaceOK (fileSpace d f).1 (fileSpace d f).2
    | .space mdims sel => SpaceOK mdims sel

/-- The elements of size `e` at the given addresses. -/
def bytesAt (e : Nat) (mem : Mem) (as : List Nat) : List Byte := as.flatMap (fun p => (List.range e).map (fun k => mem (p + k)))

/-- The user's view of a file: the datasets, the writes that have taken effect, in order, and for every process the others. -/
structure UFile where
  dsets : DSets
  done : List UW
  queue : List (List UW)

def UFile.all (u : UFile) : List UW := u.done ++ u.queue.flatten

def UFile.flush (u : UFile) : UFile := { u with done := u.all, queue := u.queue.map (fun _ => []) }

def UFile.write (r : Nat) (w : UW) (u : UFile) : UFile := { u with queue := u.queue.modify r (fun q => q ++ [w]) }

/-- Bytes queued. -/
def UFile.size (u : UFile) : Nat := (u.queue.flatten.map (fun w => w.data.length)).sum

/-- Limits on a write of the cells `xs`: 2 GiB of data, of metadata, and 2^31 writes. -/
structure UFile.Fits (u : UFile) (did : Nat) (d : DInfo) (xs : List (List Nat)) : Prop where
  did : did < 2 ^ 31
  data : d.esize * xs.length < 2 ^ 31
  md : 48 + 8 * d.ndim + 16 * (d.ndim * xs.length) < 2 ^ 31
  num : u.all.length + 1 < 2 ^ 31

/-- The cells lie in one record of a dataset with unlimited first dimension. -/
def UW.InRecord (w : UW) : Prop := w.d.mdims.head? = some none ∧ ∃ n, ∀ x ∈ w.cells, x.head? = some n

/-- Selections that are one block by their form. -/
def OneBlock : H5Sel → Prop
  | .hyper (some h) _ => ((∀ n ∈ h.stride, n = 1) ∧ ∀ n ∈ h.block, n = 1) ∨ ∀ n ∈ h.count, n = 1
  | .hyper none bs => bs.length = 1
  | .points ps => ps.length ≤ 1
  | .all _ => True
  | .none => True

/-- No complete line of cells along dimension `k` or a later one is selected. -/
def UW.NoLine (k : Nat) (w : UW) : Prop :=
  ∀ i, k ≤ i → ∀ (h : i < w.d.dims.length), ∀ x ∈ w.cells, ∃ c < w.d.dims[i], x.set i c ∉ w.cells

/-- The same cells, or the same cells of possibly different records. -/
def SameCells (x y : UW) : Prop :=
  x.cells = y.cells ∨ (x.InRecord ∧ y.InRecord ∧ x.cells.map (List.drop 1) = y.cells.map (List.drop 1))

/-- Writes that the configuration can record. With selection encoding: one block, or no complete line of cells except along the first
dimension (in a record: the first two); see `C04_encoding_violated`. With sharing as well: of the writes of several blocks all are
confined to records, or none is; see `C06_sharing_compare_violated`. -/
structure UFile.Allows (cfg : Cfg) (u : UFile) (w : UW) : Prop where
  enc : cfg.selEncode = true → OneBlock w.sel ∨ (prod w.d.dims < 2 ^ 63 ∧ (w.NoLine 1 ∨ (w.InRecord ∧ w.NoLine 2)))
  mix : cfg.share = true → cfg.selEncode = true → ∀ v ∈ u.all, OneBlock w.sel ∨ OneBlock v.sel ∨ (w.InRecord ↔ v.InRecord)

/-- Writes that the index can hold, so that the dataset `did` can be read. With sharing: datasets with writes to the same cells are all present or all removed
(`C45_unlink_violated`), for the compact index only those with writes to the cells of a write to `did`; the list index needs equal element sizes
(`C06_sharing_list_violated`), and the compact index that no cells in a record of `did` are written twice by the same selection (`C02_readback_violated`). -/
structure UFile.Indexed (cfg : Cfg) (compact : Bool) (did : Nat) (u : UFile) : Prop where
  link : cfg.share = true → u.all.Pairwise (fun x y => SameCells x y → compact = false ∨ x.did = did ∨ y.did = did →
    (present u.dsets x.did ↔ present u.dsets y.did))
  sizes : cfg.share = true → compact = false → u.all.Pairwise (fun x y => SameCells x y → x.did = did ∨ y.did = did →
    x.d.esize = y.d.esize ∨ (OneBlock x.sel ∧ OneBlock y.sel))
  norep : cfg.share = true → compact = true → u.all.Pairwise (fun x y => x.InRecord → y.InRecord → x.did = did ∨ y.did = did → x.cells ≠ y.cells)

/-- States of a file reached by calls of the application, and what the application has written. Reads by several processes are made
when nothing is queued (C67). -/
inductive Calls (srt : List (List Nat) → List Nat) (cfg : Cfg) : FState → UFile → Prop
  | create (compact : Bool) (mbuf : Option Nat) (np : Nat) (disk : Mem) : 0 < np → np < 2 ^ 31 →
      Calls srt cfg (FState.create cfg compact mbuf np disk) ⟨[], [], List.replicate np []⟩
  | dset {st u} (d : DInfo) : Calls srt cfg st u → Calls srt cfg (st.addDset d) { u with dsets := u.dsets ++ [some d] }
  | extent {st u} (did : Nat) (dims : List Nat) (d : DInfo) : Calls srt cfg st u → u.dsets[did]? = some (some d) →
      dims.length = d.ndim → Calls srt cfg (st.setDims did dims)
        { u with dsets := u.dsets.modify did (Option.map (fun d => { d with dims := dims })) }
  | write {st u st'} (r did : Nat) (d : DInfo) (f : FArg) (m : MArg) (ubuf : Nat) (mem : Mem) (xs : List (List Nat))
      (as : List Nat) : Calls srt cfg st u → r < u.queue.length → u.dsets[did]? = some (some d) → Xfer d f m ubuf xs as →
      xs ≠ [] → u.Fits did d xs → u.Allows cfg ⟨did, d, (fileSpace d f).2, xs, bytesAt d.esize mem as⟩ →
      st.h5dwrite srt r did f m ubuf mem = .ok st' →
      Calls srt cfg st' (u.write r ⟨did, d, (fileSpace d f).2, xs, bytesAt d.esize mem as⟩)
  | flush {st u st'} (doff : Nat) : Calls srt cfg st u → Fresh st doff → st.fileFlush doff = .ok st' → Small st' →
      Calls srt cfg st' u.flush
  | read {st u st1 st2} (asked : Bool) (doff mdoff : Nat) : Calls srt cfg st u → u.queue.length = 1 ∨ u.queue.flatten = [] →
      Fresh st doff → Fresh st mdoff → doff + u.size ≤ mdoff → st.dread asked doff mdoff = .ok st1 → Small st1 →
      st1.Searches st2 → Calls srt cfg st2 u.flush
  | reopen {st u st'} (doff mdoff np : Nat) (compact : Bool) (mbuf : Option Nat) (gone : Nat → Bool) : Calls srt cfg st u →
      Fresh st doff → Fresh st mdoff → doff + u.size ≤ mdoff → 0 < np → np < 2 ^ 31 → st.close doff mdoff = .ok st' → Small st' →
      Calls srt cfg (st'.reopen np compact mbuf gone)
        ⟨u.dsets.mapIdx (fun i o => if gone i then none else o), u.all, List.replicate np []⟩

/-- A read of the cells `xs` of dataset `did` to the addresses `as` succeeds; element number `i` is put at the `i`-th address: the
value last written, else the fill value; and nothing else is changed, except the internal buffer (at `xbuf`, of the size of the data). -/
def GetsAll (srt : List (List Nat) → List Nat) (st : FState) (us : List UW) (r did : Nat) (d : DInfo) (f : FArg) (m : MArg)
    (ubuf : Nat) (xs : List (List Nat)) (as : List Nat) : Prop :=
  ∀ xbuf, ∃ n, ∀ fuel ≥ n, ∀ fill mem, (∃ mem', st.h5dread srt fuel r did f m ubuf xbuf fill mem (.ok mem')) ∧
    ∀ out, st.h5dread srt fuel r did f m ubuf xbuf fill mem out → ∃ mem', out = .ok mem' ∧
      (∀ (i : Nat) (x : List Nat) (p j : Nat), xs[i]? = some x → as[i]? = some p → j < d.esize →
        (∀ v, lastElem us did x j = some v → mem' (p + j) = v) ∧
        (lastElem us did x j = none → ∀ fv v, fill did = some fv → fv[j]? = some v → mem' (p + j) = v)) ∧
      ∀ q, (∀ p ∈ as, ¬ (p ≤ q ∧ q < p + d.esize)) → ¬ (xbuf ≤ q ∧ q < xbuf + d.esize * xs.length) → mem' q = mem q

end Verif.Spec
