import Verif.Lemmas.RegularIff
import Verif.Props.Dataspace
import Verif.Lemmas.EvalSel

/-
Exactly which regular hyperslabs are normalised correctly, for any number of dimensions.
-/

namespace Verif.Props

open Verif.Spec (GridOK InGrid gridBlocks NoInterleave Strided RowMajor Exact timesIn Solid Calm Quiet Safe)

/-- C14 for regular hyperslabs of any number of dimensions, both directions: constructor and destructor succeed and the
blocks hold the selected cells in row-major order if and only if stride, count and block are `Safe`.  Full statement:
without the condition. -/
theorem C14_exact_partial {srt : List (List Nat) → List Nat} (hs : IsSort srt) {s t c b : List Nat} (hn : 0 < s.length)
    (h : GridOK s t c b) :
    (∃ sel, selections srt s.length (.hyper (some ⟨s, t, c, b⟩) (gridBlocks s t c b)) = .ok sel ∧
      sel.destroy s.length = .ok () ∧ ∃ xs, RowMajor (InGrid s t c b) xs ∧ Exact s.length sel.blocks xs) ↔ Safe t c b := by
  constructor
  · rintro ⟨sel, e, _, xs, hx, he⟩
    refine Classical.byContradiction (fun hu => ?_)
    obtain ⟨sel', e', _, x, hin, h0⟩ := grid_lost hs hn h hu
    rw [e] at e'
    cases e'
    exact exact_covers he ((hx.2 x).mpr hin) h0
  · intro hi
    exact grid_exact hs hn h ((settledAll_grid hs hn h).mpr hi)

/-- C13 and C14 are violated by every regular hyperslab that is not `Safe`: constructor and destructor succeed, and a selected
cell is in none of the blocks, so that its element is neither written nor read. -/
theorem C13_regular_violated {srt : List (List Nat) → List Nat} (hs : IsSort srt) {s t c b : List Nat} (hn : 0 < s.length)
    (h : GridOK s t c b) (hu : ¬ Safe t c b) :
    ∃ sel, selections srt s.length (.hyper (some ⟨s, t, c, b⟩) (gridBlocks s t c b)) = .ok sel ∧
      sel.destroy s.length = .ok () ∧ ∃ x, InGrid s t c b x ∧ timesIn sel.blocks x = 0 :=
  grid_lost hs hn h hu

/-- The condition for three dimensions: it fails if and only if there are several blocks in the first and in the second
dimension, with several cells each, the blocks of the second dimension are apart, and the cells of the last dimension
are contiguous. -/
theorem C14_cube_partial {srt : List (List Nat) → List Nat} (hs : IsSort srt) {s1 s2 s3 t1 t2 t3 c1 c2 c3 b1 b2 b3 : Nat}
    (h : GridOK [s1, s2, s3] [t1, t2, t3] [c1, c2, c3] [b1, b2, b3]) :
    (∃ sel, selections srt 3 (.hyper (some ⟨[s1, s2, s3], [t1, t2, t3], [c1, c2, c3], [b1, b2, b3]⟩)
        (gridBlocks [s1, s2, s3] [t1, t2, t3] [c1, c2, c3] [b1, b2, b3])) = .ok sel ∧ sel.destroy 3 = .ok () ∧
      ∃ xs, RowMajor (InGrid [s1, s2, s3] [t1, t2, t3] [c1, c2, c3] [b1, b2, b3]) xs ∧ Exact 3 sel.blocks xs) ↔
    ¬ (1 < c1 ∧ 1 < b1 ∧ 1 < c2 ∧ 1 < b2 ∧ b2 < t2 ∧ (c3 = 1 ∨ t3 = b3)) := by
  refine (C14_exact_partial hs (by simp) h).trans ?_
  have p1 := h.1
  have p2 := h.2.1
  have p3 := h.2.2.2.1
  have p4 := h.2.2.2.2.1
  have p5 := h.2.2.2.2.2.1
  simp only [Safe, Solid, Quiet, Calm, and_true, or_true, ne_eq, reduceCtorEq, not_false_eq_true, not_true_eq_false,
    forall_const, false_implies, true_or]
  by_cases h3 : c3 = 1 ∨ t3 = b3 <;> by_cases h1 : b1 = 1 <;> by_cases h2 : b2 = 1 <;> by_cases h4 : c1 = 1 <;>
    by_cases h5 : c2 = 1 <;> by_cases h6 : t2 = b2 <;> simp only [h1, h2, h3, h4, h5, h6] <;> simp <;> omega

/-! ### The condition and the other ones -/

/-- All hyperslabs of two dimensions are `Safe`. -/
theorem safe_plane {s t c b : List Nat} (hn : s.length = 2) (h : GridOK s t c b) : Safe t c b :=
  (C14_exact_partial isort_isSort (by omega) h).mp (C14_plane_partial isort_isSort hn h)

theorem safe_strided {s t c b : List Nat} (hn : 0 < s.length) (h : GridOK s t c b) (hi : Strided t c b) : Safe t c b :=
  (C14_exact_partial isort_isSort hn h).mp (C14_strided_partial isort_isSort hn h hi)

theorem safe_noInterleave {s t c b : List Nat} (hn : 0 < s.length) (h : GridOK s t c b) (hi : NoInterleave c b) : Safe t c b :=
  (C14_exact_partial isort_isSort hn h).mp (C14_regular_partial isort_isSort hn h hi)

/-! ### Cases -/

/-- Four dimensions, blocks of several cells in all of them but the third, separate blocks everywhere but in the last
dimension: none of the other conditions holds. -/
example : GridOK [0, 1, 0, 2] [3, 4, 2, 1] [2, 3, 4, 1] [2, 2, 1, 5] ∧ Safe [3, 4, 2, 1] [2, 3, 4, 1] [2, 2, 1, 5] ∧
    ¬ NoInterleave [2, 3, 4, 1] [2, 2, 1, 5] ∧ ¬ Strided [3, 4, 2, 1] [2, 3, 4, 1] [2, 2, 1, 5] := by
  refine ⟨by simp [GridOK], by simp [Safe, Solid, Calm, Quiet], by simp [NoInterleave], ?_⟩
  simp [Strided]

/-- Four dimensions, not `Safe`. -/
example : GridOK [0, 1, 0, 2] [3, 4, 3, 1] [2, 3, 4, 1] [2, 2, 2, 5] ∧ ¬ Safe [3, 4, 3, 1] [2, 3, 4, 1] [2, 2, 2, 5] := by
  refine ⟨by simp [GridOK], by simp [Safe, Solid, Calm, Quiet]⟩

end Verif.Props
