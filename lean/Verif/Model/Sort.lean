import Verif.Model.Bytes
import Mathlib.Data.List.Perm.Basic

/-
`sortoffsets`, src/H5VL_log_dataseti.cpp L56-91: three parallel arrays (file offset, memory offset,
length) sorted by file offset; here one list of triples.
-/

namespace Verif

/-- One contiguous piece of a read: file displacement, memory address, length in bytes. -/
structure Seg where
  f : Int
  m : Nat
  len : Nat
deriving DecidableEq, Repr

/-- One pass `for (i = 0; i < len - 1; i++) if (oa[i+1] < oa[i]) OSWAP (i, i+1)`,
src/H5VL_log_dataseti.cpp L64-69. The flag is `j`. -/
def bubblePass : List Seg → List Seg × Bool
  | [] => ([], false)
  | [x] => ([x], false)
  | x :: y :: r =>
    if y.f < x.f then
      let p := bubblePass (x :: r)
      (y :: p.1, true)
    else
      let p := bubblePass (y :: r)
      (x :: p.1, p.2)

/-- Number of inversions (only used to justify termination). -/
def inversions : List Seg → Nat
  | [] => 0
  | x :: r => (r.filter (fun y => decide (y.f < x.f))).length + inversions r

theorem bubblePass_perm : ∀ l : List Seg, (bubblePass l).1.Perm l
  | [] => by simp [bubblePass]
  | [_] => by simp [bubblePass]
  | x :: y :: r => by
    unfold bubblePass
    split
    · exact ((bubblePass_perm (x :: r)).cons y).trans (List.Perm.swap _ _ _)
    · exact (bubblePass_perm (y :: r)).cons x

theorem bubblePass_inversions : ∀ l : List Seg,
    inversions (bubblePass l).1 ≤ inversions l ∧
    ((bubblePass l).2 = true → inversions (bubblePass l).1 < inversions l)
  | [] => by simp [bubblePass]
  | [_] => by simp [bubblePass]
  | x :: y :: r => by
    unfold bubblePass
    split
    · rename_i h
      have ih := (bubblePass_inversions (x :: r)).1
      have hp := ((bubblePass_perm (x :: r)).filter (fun z => decide (z.f < y.f))).length_eq
      have hx : ¬ x.f < y.f := by omega
      simp only [inversions, List.filter_cons, hx, h, decide_true, decide_false, if_true,
        Bool.false_eq_true, if_false, List.length_cons] at *
      constructor
      · omega
      · intro _; omega
    · rename_i h
      have ih := bubblePass_inversions (y :: r)
      have hp := ((bubblePass_perm (y :: r)).filter (fun z => decide (z.f < x.f))).length_eq
      simp only [inversions, List.filter_cons, h, decide_false, Bool.false_eq_true, if_false] at *
      constructor
      · omega
      · intro h2; have := ih.2 h2; omega

/-- `while (j) { ... }`, src/H5VL_log_dataseti.cpp L61-72. -/
def bubbleSort (l : List Seg) : List Seg :=
  if (bubblePass l).2 = true then bubbleSort (bubblePass l).1 else (bubblePass l).1
termination_by inversions l
decreasing_by exact (bubblePass_inversions l).2 (by assumption)

/-- The partition loop, src/H5VL_log_dataseti.cpp L79-85. The array is `lo ++ hi ++ rest` with
`j = lo.length` and `i = lo.length + hi.length`; swapping `i` and `j` moves the first element of
`hi` to its end. -/
def partLoop (p : Int) (lo hi : List Seg) : List Seg → List Seg × List Seg
  | [] => (lo, hi)
  | x :: rest =>
    if x.f < p then
      match hi with
      | [] => partLoop p (lo ++ [x]) [] rest
      | g :: gs => partLoop p (lo ++ [x]) (gs ++ [g]) rest
    else partLoop p lo (hi ++ [x]) rest

theorem partLoop_perm (p : Int) : ∀ (rest lo hi : List Seg),
    ((partLoop p lo hi rest).1 ++ (partLoop p lo hi rest).2).Perm (lo ++ hi ++ rest)
  | [], lo, hi => by simp [partLoop]
  | x :: rest, lo, hi => by
    unfold partLoop
    split
    · split
      · refine (partLoop_perm p rest _ _).trans ?_
        simp
      · rename_i g gs
        refine (partLoop_perm p rest _ _).trans ?_
        simp only [List.append_assoc]
        refine List.Perm.append_left lo ?_
        simp only [List.cons_append, List.nil_append]
        refine (List.perm_middle (l₁ := x :: gs) (a := g) (l₂ := rest)).trans ?_
        refine List.Perm.cons g ?_
        exact (List.perm_middle (l₁ := gs) (a := x) (l₂ := rest)).symm
    · refine (partLoop_perm p rest _ _).trans ?_
      simp

/-- Exchange the last element (the pivot) with the first of the upper part:
`OSWAP (p, j)`, src/H5VL_log_dataseti.cpp L87. -/
def rotHi : List Seg → List Seg
  | [] => []
  | g :: gs => gs ++ [g]

/-- `OSWAP (p, len - 1)` with `p = len / 2`, L76: the pivot and the remaining array. -/
def takePivot (l : List Seg) (h : l ≠ []) : Seg × List Seg :=
  let p := l.length / 2
  if hp : p < l.length - 1 then
    (l[p]'(by omega), (l.take (l.length - 1)).set p (l.getLast h))
  else (l.getLast h, l.dropLast)

theorem takePivot_perm (l : List Seg) (h : l ≠ []) :
    ((takePivot l h).1 :: (takePivot l h).2).Perm l := by
  unfold takePivot
  simp only
  split
  · rename_i hp
    have hl : l = l.take (l.length - 1) ++ [l.getLast h] := by
      have := List.dropLast_append_getLast h
      rw [List.dropLast_eq_take] at this
      exact this.symm
    have hp2 : l.length / 2 < (l.take (l.length - 1)).length := by rw [List.length_take]; omega
    have hget : l[l.length / 2]'(by omega) = (l.take (l.length - 1))[l.length / 2]'hp2 := by simp
    rw [hget]
    conv_rhs => rw [hl]
    clear hget
    revert hp2
    generalize l.take (l.length - 1) = t
    generalize l.getLast h = z
    generalize l.length / 2 = k
    intro hp2
    simp only
    have hset : (t.set k z) = t.take k ++ z :: t.drop (k + 1) := List.set_eq_take_append_cons_drop.trans (if_pos hp2)
    rw [hset]
    have ht : t = t.take k ++ t[k] :: t.drop (k + 1) := by simp
    conv_rhs => rw [ht]
    have h1 : (t[k] :: (t.take k ++ z :: t.drop (k + 1))).Perm
        (t[k] :: z :: (t.take k ++ t.drop (k + 1))) := (List.perm_middle).cons _
    have h2 : (t.take k ++ t[k] :: t.drop (k + 1) ++ [z]).Perm
        (z :: t[k] :: (t.take k ++ t.drop (k + 1))) := by
      refine (List.perm_append_comm).trans ?_
      simp only [List.singleton_append]
      exact (List.perm_middle).cons _
    exact h1.trans ((List.Perm.swap _ _ _).trans h2.symm)
  · have := List.dropLast_append_getLast h
    conv_rhs => rw [← this]
    exact (List.perm_append_comm (l₁ := [l.getLast h]) (l₂ := l.dropLast))

/-- `sortoffsets`, src/H5VL_log_dataseti.cpp L56-91. -/
def sortoffsets (l : List Seg) : List Seg :=
  if h : l.length < 16 then bubbleSort l
  else
    have hne : l ≠ [] := by intro he; simp [he] at h
    let tp := takePivot l hne
    let lh := partLoop tp.1.f [] [] tp.2
    sortoffsets lh.1 ++ tp.1 :: sortoffsets (rotHi lh.2)
termination_by l.length
decreasing_by
  · have h1 := (takePivot_perm l hne).length_eq
    have h2 := (partLoop_perm tp.1.f tp.2 [] []).length_eq
    simp at h1 h2
    show lh.1.length < l.length
    simp only [lh, tp] at *
    omega
  · have h1 := (takePivot_perm l hne).length_eq
    have h2 := (partLoop_perm tp.1.f tp.2 [] []).length_eq
    have h3 : ∀ x : List Seg, (rotHi x).length = x.length := by
      intro x; cases x <;> simp [rotHi]
    simp at h1 h2
    rw [h3]
    simp only [tp] at *
    omega

end Verif
