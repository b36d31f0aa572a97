import Verif.Spec.File

/-
The format of metadata datasets as a document would give it, doc/metadata_format.md: a text written by a
generator for a list of entries.  The places where the document and the connector differ are parameters.
Nothing here refers to the code that builds or decodes entries.
-/

namespace Verif.Spec.Format

/-- INT32 (`w = 4`) and INT64 (`w = 8`): two's complement, least significant byte first. -/
def int (w : Nat) (x : Int) : List Byte :=
  (List.range w).map (fun i => UInt8.ofNat ((x / ((256 ^ i : Nat) : Int)) % 256).toNat)

/-- A sequence of INT64. -/
def ints (ns : List Nat) : List Byte := ns.flatMap (fun n : Nat => int 8 (n : Int))

/-- Points on which a description of the format has to decide. -/
structure Dialect where
  word : Nat         -- bytes of `nproc`
  ends0 : Bool       -- there is an `end_off` of process 0
  grouped : Bool     -- all starts come before all counts
  recCount : Bool    -- a record selection of one block has an `nsel`
  codedCount : Bool  -- an encoded selection list has an `nsel`
  codedEnd : Bool    -- the second number of an encoded selection is its end, not its length

/-- As the document says. Whether `nsel` belongs to both alternatives of `multi_selection` is left open. -/
def documented (nselToo : Bool) : Dialect :=
  { word := 4, ends0 := false, grouped := false, recCount := true, codedCount := nselToo, codedEnd := true }

/-- As the connector does. -/
def actual : Dialect :=
  { word := 8, ends0 := true, grouped := true, recCount := false, codedCount := true, codedEnd := false }

/-- The alternatives of `selection`. Blocks of record selections are given without their first
dimension. In `coded`, `ws` is the `encoding_info`. A reference repeats the flags of its selection. -/
inductive Sel
  | single (b : Blk)
  | multi (bs : List Blk)
  | coded (ws : List Nat) (bs : List Blk)
  | ref (isMulti isCoded : Bool) (off : Int)
deriving DecidableEq, Repr

/-- `entry`; `recnum` is `record_num`. -/
structure Entry where
  did : Nat
  recnum : Option Nat
  sel : Sel
  foff : Int
  fsize : Int
deriving DecidableEq, Repr

/-- A vector as one number: weights `ws`, and 1 for the last dimension. -/
def code (ws c : List Nat) : Nat := (List.zipWith (fun x w => x * w) c (ws ++ [1])).sum

def coords (v : Dialect) (bs : List Blk) : List Nat :=
  if v.grouped then bs.flatMap Blk.start ++ bs.flatMap Blk.count
  else bs.flatMap (fun b => b.start ++ b.count)

/-- `encoded_start`. -/
def code1 (ws : List Nat) (b : Blk) : Nat := code ws b.start

/-- `encoded_end`. -/
def code2 (v : Dialect) (ws : List Nat) (b : Blk) : Nat :=
  (if v.codedEnd then code ws b.start else 0) + code ws b.count

def codes (v : Dialect) (ws : List Nat) (bs : List Blk) : List Nat :=
  if v.grouped then bs.map (code1 ws) ++ bs.map (code2 v ws)
  else bs.flatMap (fun b => [code1 ws b, code2 v ws b])

def Sel.text (v : Dialect) (isRec : Bool) : Sel → List Byte
  | .single b => (if isRec && v.recCount then int 4 1 else []) ++ ints (coords v [b])
  | .multi bs => int 4 bs.length ++ ints (coords v bs)
  | .coded ws bs => (if v.codedCount then int 4 bs.length else []) ++ ints ws ++ ints (codes v ws bs)
  | .ref _ _ off => int 8 off

def Sel.isMulti : Sel → Bool
  | .single _ => false
  | .multi _ => true
  | .coded _ _ => true
  | .ref m _ _ => m

def Sel.isCoded : Sel → Bool
  | .single _ => false
  | .multi _ => false
  | .coded _ _ => true
  | .ref _ c _ => c

def Sel.isRef : Sel → Bool
  | .ref _ _ _ => true
  | _ => false

/-- `flag`: bit 0 is_multi_block, bit 1 unused, bit 2 is_encoded, bit 3 is_compressed (off), bit 4
is_reference, bit 5 is_record. -/
def Entry.flag (e : Entry) : Nat :=
  (if e.sel.isMulti then 1 else 0) + (if e.sel.isCoded then 4 else 0) + (if e.sel.isRef then 16 else 0)
    + (if e.recnum.isSome then 32 else 0)

/-- `selection`. -/
def Entry.body (v : Dialect) (e : Entry) : List Byte :=
  (match e.recnum with | some n => int 8 n | none => []) ++ e.sel.text v e.recnum.isSome

/-- `header selection`. -/
def Entry.text (v : Dialect) (e : Entry) : List Byte :=
  int 4 ((28 + (e.body v).length : Nat) : Int) ++ int 4 e.did ++ int 4 e.flag ++ int 8 e.foff
    ++ int 8 e.fsize ++ e.body v

/-- Entries of one process. -/
def section_ (v : Dialect) (es : List Entry) : List Byte := es.flatMap (Entry.text v)

/-- End offsets of the sections. -/
def ends (base : Nat) (sizes : List Nat) : List Nat :=
  (List.range sizes.length).map (fun i => base + (sizes.take (i + 1)).sum)

/-- `decomp` for sections of the given sizes. -/
def decomp (v : Dialect) (sizes : List Nat) : List Byte :=
  if v.ends0 then int v.word sizes.length ++ ints (ends (v.word + 8 * sizes.length) sizes)
  else int v.word sizes.length ++ ints ((ends (v.word + 8 * (sizes.length - 1)) sizes).drop 1)

/-- `metadata`: the entries of the processes one after the other. -/
def text (v : Dialect) (ss : List (List Entry)) : List Byte :=
  decomp v (ss.map (fun es => (section_ v es).length)) ++ ss.flatMap (section_ v)

/-! ### Meaning -/

/-- Block of a record selection with the first dimension. -/
def whole : Option Nat → Blk → Blk
  | none, b => b
  | some n, b => { start := n :: b.start, count := 1 :: b.count }

/-- The same block of another record. -/
def inRecord : Option Nat → Blk → Blk
  | none, b => b
  | some n, b => { start := n :: b.start.drop 1, count := 1 :: b.count.drop 1 }

def Sel.blocks : Sel → Option (List Blk)
  | .single b => some [b]
  | .multi bs => some bs
  | .coded _ bs => some bs
  | .ref _ _ _ => none

/-- Offset of entry number `i` in its section. -/
def pos (v : Dialect) (es : List Entry) (i : Nat) : Nat := (section_ v (es.take i)).length

/-- Blocks selected by entry number `i` of a section. A reference gives the distance to an earlier entry of the
section, and selects what that entry does, or the same in another record. -/
inductive Selects (v : Dialect) (es : List Entry) : Nat → List Blk → Prop
  | own {i : Nat} {e : Entry} {bs : List Blk} : es[i]? = some e → e.sel.blocks = some bs →
      Selects v es i (bs.map (whole e.recnum))
  | ref {i j : Nat} {e : Entry} {m c : Bool} {off : Int} {bs : List Blk} : es[i]? = some e → e.sel = .ref m c off →
      j < i → (pos v es j : Int) = pos v es i + off → Selects v es j bs →
      Selects v es i (bs.map (inRecord e.recnum))

/-- The entries `es` describe the writes `ws` of one process, in order: dataset, selection, place of the
data. -/
structure Describes (v : Dialect) (disk : Mem) (es : List Entry) (ws : List AW) : Prop where
  len : es.length = ws.length
  each : ∀ (i : Nat) (e : Entry) (w : AW), es[i]? = some e → ws[i]? = some w →
    e.did = w.did ∧ e.fsize = w.data.length ∧ 0 ≤ e.foff ∧
      fileBytes disk e.foff.toNat w.data.length = w.data ∧ Selects v es i w.bs

/-! ### Limits of the fields -/

/-- A vector can be recovered from its number: what the dimensions after each one contribute is less than
its weight. -/
def Decodable : List Nat → List Nat → Prop
  | w :: ws, _ :: cs => code ws cs < w ∧ Decodable ws cs
  | _, _ => True

/-- A selection of `n` dimensions. -/
def Sel.Fits (n : Nat) : Sel → Prop
  | .single b => BlkOK n b
  | .multi bs => 1 < bs.length ∧ bs.length < 2 ^ 31 ∧ ∀ b ∈ bs, BlkOK n b
  | .coded ws bs => 1 < bs.length ∧ bs.length < 2 ^ 31 ∧ ws.length + 1 = n ∧ (∀ w ∈ ws, w < 2 ^ 64) ∧
      ∀ b ∈ bs, b.start.length = n ∧ b.count.length = n ∧ code ws b.start < 2 ^ 64 ∧ code ws b.count < 2 ^ 64 ∧
        Decodable ws b.start ∧ Decodable ws b.count
  | .ref _ _ off => -(2 ^ 63) ≤ off ∧ off < 2 ^ 63

/-- An entry of a dataset with `n` dimensions, all fields of which hold their values. -/
structure Entry.Fits (v : Dialect) (n : Nat) (e : Entry) : Prop where
  size : 28 + (e.body v).length < 2 ^ 31
  did : e.did < 2 ^ 31
  foff : 0 ≤ e.foff ∧ e.foff < 2 ^ 63
  fsize : 0 ≤ e.fsize ∧ e.fsize < 2 ^ 63
  recn : ∀ k, e.recnum = some k → k < 2 ^ 64 ∧ 0 < n
  sel : e.sel.Fits (n - if e.recnum.isSome then 1 else 0)

end Verif.Spec.Format
