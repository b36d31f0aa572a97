import Verif.Lemmas.Sort

/-
C15: sorting of the pieces of an interleaved read.
-/

namespace Verif.Props

/-- **C15.** Whatever the pieces (equal offsets included), the hand-written sort returns a
permutation of them with non-decreasing file offsets. -/
theorem C15_sortoffsets (l : List Seg) :
    (sortoffsets l).Perm l ∧ (sortoffsets l).Pairwise (fun a b => a.f ≤ b.f) :=
  ⟨sortoffsets_perm l, sortoffsets_sorted l⟩

/-- A case with duplicates, long enough for the partitioning branch. -/
example : ∃ l : List Seg, l.length = 18 ∧ ¬ l.Pairwise (fun a b => a.f ≤ b.f) ∧ ¬ (l.map Seg.f).Nodup := by
  refine ⟨(List.range 18).map (fun i => ⟨(((i * 7) % 5 : Nat) : Int), i, 1⟩), by decide, by decide, by decide⟩

end Verif.Props
