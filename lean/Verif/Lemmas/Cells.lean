import Verif.Lemmas.View
import Verif.Lemmas.MergeArr
import Mathlib.Data.List.Perm.Lattice

namespace Verif
open Spec

/-! ### Row-major order -/

theorem rowLt_iff : ∀ {x y : List Nat}, lexLt x y = true ↔ RowLt x y
  | [], _ => by simp [lexLt, RowLt]
  | _ :: _, [] => by simp [lexLt, RowLt]
  | x :: xs, y :: ys => by
    have ih := rowLt_iff (x := xs) (y := ys)
    simp only [lexLt, RowLt]
    by_cases h : x < y
    · simp [h]
    · by_cases h' : y < x
      · have : x ≠ y := by omega
        simp [h, h', this]
      · have : x = y := by omega
        simp [this, ih]

theorem Spec.RowLt.trans : ∀ {x y z : List Nat}, RowLt x y → RowLt y z → RowLt x z
  | [], _, _, h, _ => by simp [RowLt] at h
  | _ :: _, [], _, h, _ => by simp [RowLt] at h
  | _ :: _, _ :: _, [], _, h => by simp [RowLt] at h
  | x :: xs, y :: ys, z :: zs, h, h' => by
    simp only [RowLt] at *
    rcases h with h | ⟨rfl, h⟩ <;> rcases h' with h' | ⟨rfl, h'⟩
    · left; omega
    · left; omega
    · left; omega
    · exact .inr ⟨rfl, h.trans h'⟩

theorem Spec.RowLt.irrefl : ∀ {x : List Nat}, ¬ RowLt x x
  | [], h => by simp [RowLt] at h
  | x :: xs, h => by
    simp only [RowLt, Nat.lt_irrefl, false_or, true_and] at h
    exact RowLt.irrefl h

theorem Spec.RowLt.asymm {x y : List Nat} (h : RowLt x y) (h' : RowLt y x) : False := RowLt.irrefl (h.trans h')

theorem rowLt_total {x y : List Nat} (h : x.length = y.length) : RowLt x y ∨ RowLt y x ∨ x = y := by
  rw [← rowLt_iff, ← rowLt_iff]; exact lexLt_total h

/-- Not greater. -/
def RowLe (x y : List Nat) : Prop := RowLt x y ∨ x = y

theorem RowLe.trans_lt {x y z : List Nat} (h : RowLe x y) (h' : RowLt y z) : RowLt x z := by
  rcases h with h | rfl
  · exact h.trans h'
  · exact h'

theorem Spec.RowLt.trans_le {x y z : List Nat} (h : RowLt x y) (h' : RowLe y z) : RowLt x z := by
  rcases h' with h' | rfl
  · exact h.trans h'
  · exact h

theorem inBox_first : ∀ {s c x : List Nat}, inBox s c x = true → RowLe s x
  | [], [], [], _ => .inr rfl
  | s :: ss, c :: cs, x :: xs, h => by
    simp only [inBox, Bool.and_eq_true, decide_eq_true_eq] at h
    rcases Nat.lt_or_ge s x with h1 | h1
    · exact .inl (.inl h1)
    · have : s = x := by omega
      subst this
      rcases inBox_first h.2 with h2 | rfl
      · exact .inl (.inr ⟨rfl, h2⟩)
      · exact .inr rfl
  | [], [], _ :: _, h => by simp [inBox] at h
  | [], _ :: _, _, h => by simp [inBox] at h
  | _ :: _, [], _, h => by simp [inBox] at h
  | _ :: _, _ :: _, [], h => by simp [inBox] at h

theorem inBox_last : ∀ {s c x : List Nat}, inBox s c x = true → RowLe x (lastPos s c)
  | [], [], [], _ => .inr rfl
  | s :: ss, c :: cs, x :: xs, h => by
    simp only [inBox, Bool.and_eq_true, decide_eq_true_eq] at h
    simp only [lastPos, List.zipWith_cons_cons]
    rcases Nat.lt_or_ge x (s + c - 1) with h1 | h1
    · exact .inl (.inl h1)
    · have : x = s + c - 1 := by omega
      subst this
      rcases inBox_last h.2 with h2 | h2
      · exact .inl (.inr ⟨rfl, h2⟩)
      · right
        rw [h2]; rfl
  | [], [], _ :: _, h => by simp [inBox] at h
  | [], _ :: _, _, h => by simp [inBox] at h
  | _ :: _, [], _, h => by simp [inBox] at h
  | _ :: _, _ :: _, [], h => by simp [inBox] at h

/-! ### Cells of a block -/

theorem cells_cons (s c : Nat) (ss cs : List Nat) :
    cells (s :: ss) (c :: cs) = (List.range c).flatMap (fun x => (cells ss cs).map (fun y => (s + x) :: y)) := by
  simp only [cells, boxIdx, List.map_flatMap, List.map_map]
  congr 1

@[simp] theorem cells_nil : cells [] [] = [[]] := rfl

theorem cells_sorted : ∀ {s c : List Nat}, s.length = c.length → (cells s c).Pairwise RowLt
  | [], [], _ => by simp
  | s :: ss, c :: cs, h => by
    have ih := cells_sorted (s := ss) (c := cs) (by simpa using h)
    rw [cells_cons, List.pairwise_flatMap]
    constructor
    · intro x _
      rw [List.pairwise_map]
      exact ih.imp (fun h => .inr ⟨rfl, h⟩)
    · refine List.pairwise_lt_range.imp ?_
      intro a b hab x hx y hy
      obtain ⟨x', _, rfl⟩ := List.mem_map.mp hx
      obtain ⟨y', _, rfl⟩ := List.mem_map.mp hy
      exact .inl (by omega)
  | [], _ :: _, h => by simp at h
  | _ :: _, [], h => by simp at h

/-- Cells of a row of the coordinate arrays, given as start and count. -/
def cellsR (r : CRow) : List (List Nat) := cells r.1 r.2

/-- Cells of the blocks, block after block. -/
def cellsL (l : List CRow) : List (List Nat) := l.flatMap cellsR

theorem cellsL_append (a b : List CRow) : cellsL (a ++ b) = cellsL a ++ cellsL b := List.flatMap_append

theorem cellsL_cons (a : CRow) (b : List CRow) : cellsL (a :: b) = cellsR a ++ cellsL b := List.flatMap_cons

theorem cellsL_perm {a b : List CRow} (h : a.Perm b) : (cellsL a).Perm (cellsL b) := h.flatMap_right _

/-! ### Merging two blocks -/

theorem canMerge_eq (u : Bool) : ∀ {d : Nat} {s c s' c' : List Nat}, canMerge u d s c s' c' = true →
    s.length = c.length → s'.length = s.length ∧ c'.length = s.length
  | 0, s :: ss, c :: cs, s' :: ss', c' :: cs', h, hl => by
    simp only [canMerge, Bool.and_eq_true, decide_eq_true_eq] at h
    obtain ⟨_, rfl, rfl⟩ := h
    simp at hl ⊢
    omega
  | d + 1, s :: ss, c :: cs, s' :: ss', c' :: cs', h, hl => by
    simp only [canMerge, Bool.and_eq_true, decide_eq_true_eq] at h
    have := canMerge_eq u h.2 (by simpa using hl)
    simp; exact this
  | 0, [], _, _, _, h, _ => by simp [canMerge] at h
  | 0, _ :: _, [], _, _, h, _ => by simp [canMerge] at h
  | 0, _ :: _, _ :: _, [], _, h, _ => by simp [canMerge] at h
  | 0, _ :: _, _ :: _, _ :: _, [], h, _ => by simp [canMerge] at h
  | _ + 1, [], _, _, _, h, _ => by simp [canMerge] at h
  | _ + 1, _ :: _, [], _, _, h, _ => by simp [canMerge] at h
  | _ + 1, _ :: _, _ :: _, [], _, h, _ => by simp [canMerge] at h
  | _ + 1, _ :: _, _ :: _, _ :: _, [], h, _ => by simp [canMerge] at h

theorem mergeCount_length (u : Bool) : ∀ (d : Nat) (c c' : List Nat), (mergeCount u d c c').length = c.length
  | 0, [], _ => by simp [mergeCount]
  | 0, _ :: _, [] => by simp [mergeCount]
  | 0, _ :: _, _ :: _ => by simp [mergeCount]
  | _ + 1, [], _ => by simp [mergeCount]
  | _ + 1, _ :: _, [] => by simp [mergeCount]
  | d + 1, _ :: cs, _ :: cs' => by simp [mergeCount, mergeCount_length u d cs cs']

theorem range_add (a b : Nat) : List.range (a + b) = List.range a ++ (List.range b).map (fun x => a + x) := by
  rw [List.range_add]

theorem cells_split (s a b : Nat) (ss cs : List Nat) :
    cells (s :: ss) ((a + b) :: cs) = cells (s :: ss) (a :: cs) ++ cells ((s + a) :: ss) (b :: cs) := by
  rw [cells_cons, cells_cons, cells_cons, List.range_add, List.flatMap_append, List.flatMap_map]
  congr 1
  apply List.flatMap_congr
  intro x _
  congr 1
  funext y
  rw [Nat.add_assoc]

theorem merge_cells_perm : ∀ {d : Nat} {s c s' c' : List Nat}, canMerge false d s c s' c' = true →
    (cells s (mergeCount false d c c')).Perm (cells s c ++ cells s' c')
  | 0, s :: ss, c :: cs, s' :: ss', c' :: cs', h => by
    simp only [canMerge, follows, Bool.and_eq_true, decide_eq_true_eq, Bool.false_eq_true, if_false] at h
    obtain ⟨rfl, rfl, rfl⟩ := h
    simp only [mergeCount, Bool.false_eq_true, if_false]
    rw [cells_split]
  | d + 1, s :: ss, c :: cs, s' :: ss', c' :: cs', h => by
    simp only [canMerge, Bool.and_eq_true, decide_eq_true_eq] at h
    obtain ⟨⟨rfl, rfl⟩, h⟩ := h
    have ih := merge_cells_perm h
    simp only [mergeCount]
    rw [cells_cons, cells_cons, cells_cons]
    refine List.Perm.trans ?_ (List.flatMap_append_perm _ _ _).symm
    apply List.Perm.flatMap_left
    intro x _
    rw [← List.map_append]
    exact ih.map _
  | 0, [], _, _, _, h => by simp [canMerge] at h
  | 0, _ :: _, [], _, _, h => by simp [canMerge] at h
  | 0, _ :: _, _ :: _, [], _, h => by simp [canMerge] at h
  | 0, _ :: _, _ :: _, _ :: _, [], h => by simp [canMerge] at h
  | _ + 1, [], _, _, _, h => by simp [canMerge] at h
  | _ + 1, _ :: _, [], _, _, h => by simp [canMerge] at h
  | _ + 1, _ :: _, _ :: _, [], _, h => by simp [canMerge] at h
  | _ + 1, _ :: _, _ :: _, _ :: _, [], h => by simp [canMerge] at h

/-- The first `d` counts are one. -/
def OnesTo : Nat → List Nat → Prop
  | 0, _ => True
  | _ + 1, [] => True
  | d + 1, c :: cs => c = 1 ∧ OnesTo d cs

theorem OnesTo.pred : ∀ {d : Nat} {c : List Nat}, OnesTo (d + 1) c → OnesTo d c
  | 0, _, _ => trivial
  | _ + 1, [], _ => trivial
  | _ + 1, _ :: _, h => ⟨h.1, OnesTo.pred h.2⟩

theorem OnesTo.merge (u : Bool) : ∀ {d : Nat} {c c' : List Nat}, OnesTo d c → OnesTo d (mergeCount u d c c')
  | 0, _, _, _ => trivial
  | _ + 1, [], _, _ => by simp [mergeCount, OnesTo]
  | _ + 1, _ :: _, [], h => by simpa [mergeCount] using h
  | _ + 1, _ :: _, _ :: _, h => ⟨h.1, OnesTo.merge u h.2⟩

/-- With single leading dimensions merging keeps the order of the cells. -/
theorem merge_cells_eq : ∀ {d : Nat} {s c s' c' : List Nat}, canMerge false d s c s' c' = true → OnesTo d c →
    cells s (mergeCount false d c c') = cells s c ++ cells s' c'
  | 0, s :: ss, c :: cs, s' :: ss', c' :: cs', h, _ => by
    simp only [canMerge, follows, Bool.and_eq_true, decide_eq_true_eq, Bool.false_eq_true, if_false] at h
    obtain ⟨rfl, rfl, rfl⟩ := h
    simp only [mergeCount, Bool.false_eq_true, if_false]
    rw [cells_split]
  | d + 1, s :: ss, c :: cs, s' :: ss', c' :: cs', h, ho => by
    simp only [canMerge, Bool.and_eq_true, decide_eq_true_eq] at h
    obtain ⟨⟨rfl, rfl⟩, h⟩ := h
    obtain ⟨rfl, ho⟩ := ho
    have ih := merge_cells_eq h ho
    simp only [mergeCount]
    rw [cells_cons, cells_cons, cells_cons]
    simp [ih]
  | 0, [], _, _, _, h, _ => by simp [canMerge] at h
  | 0, _ :: _, [], _, _, h, _ => by simp [canMerge] at h
  | 0, _ :: _, _ :: _, [], _, h, _ => by simp [canMerge] at h
  | 0, _ :: _, _ :: _, _ :: _, [], h, _ => by simp [canMerge] at h
  | _ + 1, [], _, _, _, h, _ => by simp [canMerge] at h
  | _ + 1, _ :: _, [], _, _, h, _ => by simp [canMerge] at h
  | _ + 1, _ :: _, _ :: _, [], _, h, _ => by simp [canMerge] at h
  | _ + 1, _ :: _, _ :: _, _ :: _, [], h, _ => by simp [canMerge] at h

theorem mergeL_perm (d : Nat) : ∀ (x : CRow) (r : List CRow), (cellsL (mergeL false d x r)).Perm (cellsL (x :: r))
  | x, [] => by simp [mergeL]
  | x, y :: r => by
    unfold mergeL
    split
    · rename_i h
      refine (mergeL_perm d _ r).trans ?_
      rw [cellsL_cons, cellsL_cons, cellsL_cons, ← List.append_assoc]
      exact (merge_cells_perm h).append_right _
    · rw [cellsL_cons, cellsL_cons]
      exact (mergeL_perm d y r).append_left _

theorem mergeDimL_perm (d : Nat) (l : List CRow) : (cellsL (mergeDimL false d l)).Perm (cellsL l) := by
  cases l with
  | nil => simp [mergeDimL]
  | cons x r => exact mergeL_perm d x r

theorem mergeAllL_perm : ∀ (nd : Nat) (l : List CRow), (cellsL (mergeAllL false nd l)).Perm (cellsL l)
  | 0, _ => List.Perm.refl _
  | nd + 1, l => (mergeAllL_perm nd _).trans (mergeDimL_perm nd l)

theorem mergeL_eq (d : Nat) : ∀ (x : CRow) (r : List CRow), (∀ y ∈ x :: r, OnesTo d y.2) →
    cellsL (mergeL false d x r) = cellsL (x :: r) ∧ ∀ y ∈ mergeL false d x r, OnesTo d y.2
  | x, [], h => by simpa [mergeL] using h
  | x, y :: r, h => by
    have hx := h x (by simp)
    have hy := h y (by simp)
    have hr : ∀ z ∈ r, OnesTo d z.2 := fun z hz => h z (by simp [hz])
    unfold mergeL
    split
    · rename_i hm
      obtain ⟨h1, h2⟩ := mergeL_eq d (x.1, mergeCount false d x.2 y.2) r (by
        intro z hz
        rcases List.mem_cons.mp hz with rfl | hz
        · exact hx.merge false
        · exact hr z hz)
      refine ⟨?_, h2⟩
      rw [h1, cellsL_cons, cellsL_cons, cellsL_cons, ← List.append_assoc]
      congr 1
      exact merge_cells_eq hm hx
    · obtain ⟨h1, h2⟩ := mergeL_eq d y r (by
        intro z hz
        rcases List.mem_cons.mp hz with rfl | hz
        · exact hy
        · exact hr z hz)
      refine ⟨by rw [cellsL_cons, h1, ← cellsL_cons], ?_⟩
      intro z hz
      rcases List.mem_cons.mp hz with rfl | hz
      · exact hx
      · exact h2 z hz

/-- Merging rows keeps the sequence of cells. -/
theorem mergeAllL_eq : ∀ (nd : Nat) (l : List CRow), (∀ y ∈ l, OnesTo (nd - 1) y.2) →
    cellsL (mergeAllL false nd l) = cellsL l
  | 0, _, _ => rfl
  | nd + 1, l, h => by
    simp only [Nat.add_sub_cancel] at h
    unfold mergeAllL
    cases l with
    | nil =>
      rw [mergeAllL_eq nd (mergeDimL false nd []) (by simp [mergeDimL])]
      rfl
    | cons x r =>
      obtain ⟨h1, h2⟩ := mergeL_eq nd x r h
      rw [mergeAllL_eq nd (mergeDimL false nd (x :: r)) (by
        intro y hy
        cases nd with
        | zero => trivial
        | succ nd => exact (h2 y hy).pred)]
      exact h1

end Verif
