import Verif.Spec.Read
import Verif.Model.Index

/-
Specification vocabulary for metadata logs: which writes can be recorded and what an index entry
must say about a write.
-/

namespace Verif.Spec

/-- All blocks lie in one record of a dataset with unlimited first dimension. -/
def Confined (w : AW) : Prop :=
  w.d.mdims.head? = some none ∧ ∃ n, ∀ b ∈ w.bs, b.start.head? = some n ∧ b.count.head? = some 1

/-- Limits of the fixed-width fields of an entry. -/
structure Representable (w : AW) (foff : Int) : Prop where
  did : w.did < 2 ^ 31
  sz : 48 + 8 * w.d.ndim + 16 * (w.d.ndim * w.bs.length) < 2 ^ 31
  data : w.data.length < 2 ^ 63
  lo : 0 ≤ foff
  hi : foff < 2 ^ 63

/-- Blocks inside the extent, none spanning a whole dimension (the first dimension, and for writes
confined to one record the first two dimensions, excepted). -/
structure Encodable (w : AW) : Prop where
  ext : ∀ b ∈ w.bs, InExtent w.d.dims b
  ne : ∀ b ∈ w.bs, NonEmpty b
  width : (∀ b ∈ w.bs, NotFullWidth 1 w.d.dims b) ∨
    (Confined w ∧ ∀ b ∈ w.bs, NotFullWidth 2 w.d.dims b)
  small : prod w.d.dims < 2 ^ 63

/-- Blocks that can be expressed by encoded selections: they start inside the extent and no count reaches its
extent (the first dimension, and for writes confined to one record the first two dimensions, excepted); the numbers
have 64 bits. Every `Encodable` write has such blocks (`Encodable.expressible`). -/
structure Expressible (w : AW) : Prop where
  starts : ∀ b ∈ w.bs, b.start.length = w.d.dims.length ∧ b.count.length = w.d.dims.length ∧
    ∀ i, ∀ (hs : i < b.start.length) (hd : i < w.d.dims.length), b.start[i] < w.d.dims[i]
  width : (∀ b ∈ w.bs, NotFullWidth 1 w.d.dims b) ∨
    (Confined w ∧ ∀ b ∈ w.bs, NotFullWidth 2 w.d.dims b)
  small : prod w.d.dims < 2 ^ 63
  top : ∀ b ∈ w.bs, ∀ i, ∀ (h : i < b.count.length), (b.count[i] + 1) * prod (w.d.dims.drop (i + 1)) < 2 ^ 64

/-- A write that can be recorded at the given place of the file. -/
structure Recordable (cfg : Cfg) (w : AW) (foff : Int) : Prop where
  sel : SelOK w.d w.bs
  rep : Representable w foff
  enc : cfg.selEncode = true → 1 < w.bs.length → Expressible w

/-- Same blocks, or same blocks of possibly different records. -/
def SameSel (w' w : AW) : Prop :=
  w'.bs = w.bs ∨ (Confined w' ∧ Confined w ∧
    w'.bs.map (fun b => (b.start.drop 1, b.count.drop 1)) =
      w.bs.map (fun b => (b.start.drop 1, b.count.drop 1)))

/-- Writes of one process between two metadata flushes for which the comparison of selections is
well defined. -/
def NoMix (cfg : Cfg) (ws : List AW) : Prop :=
  cfg.selEncode = true → ws.Pairwise (fun w' w =>
    1 < w.bs.length → 1 < w'.bs.length → (Confined w ↔ Confined w'))

/-- The entry (dataset id, file offset, size, blocks with data offsets) describes the write stored at
the given place. -/
structure Describes (w : AW × Int) (did foff fsize : Int) (sels : List MSel) : Prop where
  did : did = w.1.did
  foff : foff = w.2
  fsize : fsize = w.1.data.length
  sels : sels = Spec.sels w.1.d.esize w.1.bs

/-- The blocks denoted by a compact index entry of a dataset. -/
def compactSels (d : DInfo) (e : CEnt) : Res (List MSel) :=
  match e.blocks with
  | none => .ub
  | some (n, ws) =>
    if 0 ≤ e.recd then do
      let bl ← cblocks (d.ndim - 1) n ws
      return blkDoffs d.esize 0 (bl.map (fun b => { start := e.recd.toNat :: b.start, count := 1 :: b.count }))
    else do
      let bl ← cblocks d.ndim n ws
      return blkDoffs d.esize 0 bl

/-- The dataset of the write can be opened by the reader, or is known to be unlinked; the reader sees
the same number of dimensions and element size as the writer. -/
structure Known (dsets : DSets) (w : AW) : Prop where
  lt : w.did < dsets.length
  same : ∀ d, dsets[w.did]? = some (some d) → d.ndim = w.d.ndim ∧ d.esize = w.d.esize

/-- The dataset with this id is present. -/
def present (dsets : DSets) (did : Nat) : Bool :=
  match dsets[did]? with
  | some (some _) => true
  | _ => false

/-- A metadata log: for every section (one per process) the writes in program order with the file
offsets of their data. Conditions under which it can be recorded. `mix` and `link` matter only when
metadata sharing is on: `link` asks that a write to a dataset that is present does not repeat the
selection of an earlier write of the same section to a dataset that has been removed. -/
structure LogOK (cfg : Cfg) (dsets : DSets) (ps : List (List (AW × Int))) : Prop where
  recordable : ∀ p ∈ ps, ∀ x ∈ p, Recordable cfg x.1 x.2
  known : ∀ p ∈ ps, ∀ x ∈ p, Known dsets x.1
  len : ∀ p ∈ ps, p.length < 2 ^ 31
  mix : cfg.share = true → ∀ p ∈ ps, NoMix cfg (p.map Prod.fst)
  link : cfg.share = true → ∀ p ∈ ps, p.Pairwise (fun x y => SameSel x.1 y.1 →
    present dsets y.1.did = true → present dsets x.1.did = true)

/-- Writes of a section that repeat a selection have the same element size or a single block. -/
def SameSizes (ps : List (List (AW × Int))) : Prop :=
  ∀ p ∈ ps, p.Pairwise (fun x y => SameSel x.1 y.1 →
    x.1.d.esize = y.1.d.esize ∨ y.1.bs.length = 1)

/-- No write confined to a record repeats the exact blocks of an earlier write of its section. -/
def NoRepeat (ps : List (List (AW × Int))) : Prop :=
  ∀ p ∈ ps, p.Pairwise (fun x y => Confined y.1 → x.1.bs ≠ y.1.bs)

/-- Writes of the log to datasets that are present, in log order. -/
def visible (dsets : DSets) (ps : List (List (AW × Int))) : List (AW × Int) :=
  ps.flatten.filter (fun x => present dsets x.1.did)

end Verif.Spec
