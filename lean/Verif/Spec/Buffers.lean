import Verif.Model.Buffers

/-
Specification vocabulary for internal buffers.
-/

namespace Verif.Spec

/-- Total size of the live buffers. -/
def liveTotal (l : List (Nat × Nat)) : Nat := (l.map Prod.snd).sum

/-- What `malloc` guarantees when it returns `a` for `size` bytes with `live` allocated: the address is not in use, and all
live buffers and the new one fit in the address space. -/
def MallocOK (live : List (Nat × Nat)) (size a : Nat) : Prop :=
  (∀ b ∈ live, b.1 ≠ a) ∧ liveTotal live + size < 2 ^ 63

/-- A sequence of allocations and releases in which every release is of a live buffer and `malloc` keeps its guarantee.
Sizes are those of objects that can exist (less than `PTRDIFF_MAX`). -/
def BufOK : Budget → List BufCall → Prop
  | _, [] => True
  | st, .alloc size p :: r =>
    size < 2 ^ 63 ∧ (∀ a ∈ p, MallocOK st.live size a) ∧ BufOK (balloc st size p).2 r
  | st, .free p :: r => (∀ a ∈ p, ∃ n, (a, n) ∈ st.live) ∧ BufOK (bfree st p).2 r

/-- Two memory regions (address and size) have no common byte. -/
def Apart (a b : Nat × Nat) : Prop := a.1 + a.2 ≤ b.1 ∨ b.1 + b.2 ≤ a.1

/-- Memory of the pool. -/
def Pool.memory (p : Pool) : List (Nat × Nat) := (p.used ++ p.spare).map (fun b => (b.beg, b.fin - b.beg))

/-- Runs of a pool: `PoolRun p live p' live'` when a sequence of allocations (also failed ones) and releases leads from one
state to another; `live` are the buffers handed out since the last release.  `malloc` returns memory that is not in use. -/
inductive PoolRun : Pool → List (Nat × Nat) → Pool → List (Nat × Nat) → Prop
  | nil (p : Pool) (live : List (Nat × Nat)) : PoolRun p live p live
  | alloc {p q : Pool} {live : List (Nat × Nat)} {p' : Pool} {live' : List (Nat × Nat)} (size : Nat) (m : Option Nat)
      (a : Nat) (hm : ∀ x ∈ m, ∀ k ∈ poolNeeds p size, ∀ b ∈ Pool.memory p, Apart (x, k) b)
      (h : poolAlloc p size m = .ok (q, a)) (r : PoolRun q ((a, size) :: live) p' live') : PoolRun p live p' live'
  | fail {p p' : Pool} {live live' : List (Nat × Nat)} (size : Nat) (m : Option Nat) (h : poolAlloc p size m = .err)
      (r : PoolRun p live p' live') : PoolRun p live p' live'
  | free {p q p' : Pool} {live live' : List (Nat × Nat)} (h : poolFree p = .ok q) (r : PoolRun q [] p' live') :
      PoolRun p live p' live'

end Verif.Spec
