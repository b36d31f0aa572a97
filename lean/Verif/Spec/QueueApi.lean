import Verif.Model.QueueApi
import Verif.Spec.Api

/-
What a queued H5Dread has to deliver: the elements of the selected cells, converted to the memory type, at the selected addresses.
-/

namespace Verif.Spec

/-- A queued call, the dataset when it was made, the selected cells and the addresses of the selected elements of memory. -/
structure QCall where
  c : RCall
  d : DInfo
  xs : List (List Nat)
  as : List Nat

namespace QCall

/-- Size of an element in memory. -/
def size (k : QCall) : Nat :=
  match k.c.conv with
  | none => k.d.esize
  | some v => v.size

/-- An element as it arrives in memory. -/
def value (k : QCall) (l : List Byte) : List Byte :=
  match k.c.conv with
  | none => l
  | some v => v.elem l

/-- Addresses of the application that the call is to fill. -/
def User (k : QCall) (z : Nat) : Prop := ∃ p ∈ k.as, p ≤ z ∧ z < p + k.size

/-- Addresses of the internal buffer: it has room for the elements before and after the conversion. -/
def Inner (k : QCall) (z : Nat) : Prop := k.c.xbuf ≤ z ∧ z < k.c.xbuf + k.xs.length * max k.size k.d.esize

/-- The elements are stored one after the other at the beginning of the user buffer. -/
def Whole (k : QCall) : Prop :=
  match k.c.m with
  | .block => True
  | .all => ∃ n, (fileSpace k.d k.c.f).2 = .all n
  | .space _ sel => ∃ n, sel = .all n

/-- A call that can be served.  `wide`: see `C83_wide_violated`. -/
structure OK (k : QCall) : Prop where
  xfer : Xfer { k.d with esize := k.size } k.c.f k.c.m k.c.ubuf k.xs k.as
  ne : k.xs ≠ []
  es : 0 < k.d.esize
  conv : ∀ v, k.c.conv = some v → ∀ l, l.length = k.d.esize → (v.elem l).length = v.size
  wide : k.Whole ∨ k.size ≤ k.d.esize
  start : k.c.xbuf ≠ k.c.ubuf
  own : ∀ z, k.User z → ¬ k.Inner z

/-- The dataset of a queued call is still there (its extent may have changed) and can be read from the log. -/
structure Open (cfg : Cfg) (compact : Bool) (u : UFile) (k : QCall) : Prop where
  dset : ∃ d, u.dsets[k.c.did]? = some (some d) ∧ d.ndim = k.d.ndim ∧ d.esize = k.d.esize
  idx : u.Indexed cfg compact k.c.did

/-- No memory in common. -/
def Apart (k k' : QCall) : Prop := ∀ z, ¬ ((k.User z ∨ k.Inner z) ∧ (k'.User z ∨ k'.Inner z))

/-- All cells of one call come before those of the other one, if they are cells of the same dataset. -/
def Sep (k k' : QCall) : Prop := k.c.did = k'.c.did →
  (∀ x ∈ k.xs, ∀ y ∈ k'.xs, RowLt x y) ∨ (∀ x ∈ k.xs, ∀ y ∈ k'.xs, RowLt y x)

/-- Byte `j` of a cell: of the last write, else of the fill value, if there is one. -/
def known (us : List UW) (fill : Nat → Option (List Byte)) (did : Nat) (x : List Nat) (j : Nat) : Option Byte :=
  match lastElem us did x j with
  | some v => some v
  | none => (fill did).bind (·[j]?)

/-- The elements have arrived. -/
def Got (us : List UW) (fill : Nat → Option (List Byte)) (k : QCall) (mem' : Mem) : Prop :=
  ∀ (i : Nat) (x : List Nat) (p : Nat) (l : List Byte), k.xs[i]? = some x → k.as[i]? = some p → l.length = k.d.esize →
    (∀ j < l.length, known us fill k.c.did x j = l[j]?) → ∀ j b, (k.value l)[j]? = some b → mem' (p + j) = b

end QCall

/-- The entry of the queue was made by the call, in some state in which the dataset was `k.d`. -/
def QueuedBy (srt : List (List Nat) → List Nat) (k : QCall) (p : Pend) : Prop :=
  ∃ st : FState, st.dsets[k.c.did]? = some (some k.d) ∧ st.h5dreadQ srt k.c = .ok (some p)

end Verif.Spec
