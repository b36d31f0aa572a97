import Verif.Model.Read
import Verif.Spec.Read

namespace Verif

open Spec (inBox InBlk)

@[simp] theorem prod_nil : prod [] = 1 := rfl
@[simp] theorem prod_cons (n : Nat) (ns : List Nat) : prod (n :: ns) = n * prod ns := rfl

theorem inBox_length : ∀ {s c x : List Nat}, inBox s c x = true →
    s.length = x.length ∧ c.length = x.length
  | [], [], [], _ => by simp
  | s :: ss, c :: cs, x :: xs, h => by
    simp only [inBox, Bool.and_eq_true, decide_eq_true_eq] at h
    have := inBox_length h.2
    simp [this.1, this.2]
  | [], [], _ :: _, h => by simp [inBox] at h
  | [], _ :: _, _, h => by simp [inBox] at h
  | _ :: _, [], _, h => by simp [inBox] at h
  | _ :: _, _ :: _, [], h => by simp [inBox] at h

/-- Row-major index relative to a block. -/
theorem rowIndex_eq : ∀ (s c x : List Nat) (acc : Nat), inBox s c x = true →
    Spec.rowIndex acc s c x = acc * prod c + lin c (subs x s)
  | [], [], [], acc, _ => by simp [Spec.rowIndex, lin]
  | s :: ss, c :: cs, x :: xs, acc, h => by
    simp only [inBox, Bool.and_eq_true, decide_eq_true_eq] at h
    rw [Spec.rowIndex, rowIndex_eq ss cs xs _ h.2]
    simp only [subs, List.zipWith_cons_cons, lin, prod_cons]
    rw [Nat.add_mul, Nat.mul_assoc, Nat.add_assoc]
  | [], [], _ :: _, _, h => by simp [inBox] at h
  | [], _ :: _, _, _, h => by simp [inBox] at h
  | _ :: _, [], _, _, h => by simp [inBox] at h
  | _ :: _, _ :: _, [], _, h => by simp [inBox] at h

theorem idxIn_eq {b : Blk} {x : List Nat} (h : InBlk b x) :
    Spec.idxIn b x = lin b.count (subs x b.start) := by
  unfold Spec.idxIn
  rw [rowIndex_eq _ _ _ _ h]; simp

theorem lin_lt : ∀ {s c x : List Nat}, inBox s c x = true → lin c (subs x s) < prod c
  | [], [], [], _ => by simp [lin]
  | s :: ss, c :: cs, x :: xs, h => by
    simp only [inBox, Bool.and_eq_true, decide_eq_true_eq] at h
    have ih := lin_lt h.2
    simp only [subs, List.zipWith_cons_cons, lin, prod_cons] at *
    have h1 : x - s + 1 ≤ c := by omega
    calc (x - s) * prod cs + lin cs (List.zipWith (· - ·) xs ss)
        < (x - s) * prod cs + prod cs := by omega
      _ = (x - s + 1) * prod cs := by rw [Nat.add_mul]; omega
      _ ≤ c * prod cs := Nat.mul_le_mul_right _ h1
  | [], [], _ :: _, h => by simp [inBox] at h
  | [], _ :: _, _, h => by simp [inBox] at h
  | _ :: _, [], _, h => by simp [inBox] at h
  | _ :: _, _ :: _, [], h => by simp [inBox] at h

theorem lin_inj : ∀ {s c x y : List Nat}, inBox s c x = true → inBox s c y = true →
    lin c (subs x s) = lin c (subs y s) → x = y
  | [], [], [], [], _, _, _ => rfl
  | s :: ss, c :: cs, x :: xs, y :: ys, h, h', e => by
    simp only [inBox, Bool.and_eq_true, decide_eq_true_eq] at h h'
    have l1 := lin_lt h.2
    have l2 := lin_lt h'.2
    simp only [subs, List.zipWith_cons_cons, lin] at *
    have hp : 0 < prod cs := by omega
    have hq : x - s = y - s := by
      have e1 := congrArg (· / prod cs) e
      rw [Nat.mul_comm, Nat.mul_comm (y - s), Nat.mul_add_div hp, Nat.mul_add_div hp,
        Nat.div_eq_of_lt l1, Nat.div_eq_of_lt l2] at e1
      simpa using e1
    rw [hq] at e
    have hxy : x = y := by omega
    have := lin_inj h.2 h'.2 (by simp only [subs]; omega)
    rw [hxy, this]
  | [], [], _ :: _, _, h, _, _ => by simp [inBox] at h
  | [], [], [], _ :: _, _, h, _ => by simp [inBox] at h
  | [], _ :: _, _, _, h, _, _ => by simp [inBox] at h
  | _ :: _, [], _, _, h, _, _ => by simp [inBox] at h
  | _ :: _, _ :: _, [], _, h, _, _ => by simp [inBox] at h
  | _ :: _, _ :: _, _ :: _, [], _, h, _ => by simp [inBox] at h

theorem boxIdx_length {ns x : List Nat} (h : x ∈ boxIdx ns) : x.length = ns.length := by
  induction ns generalizing x with
  | nil => simp [boxIdx] at h; simp [h]
  | cons n ns ih =>
    simp only [boxIdx, List.mem_flatMap, List.mem_map] at h
    obtain ⟨a, _, xs, hxs, rfl⟩ := h
    simp [ih hxs]

/-- The cells of a block, in row-major order. -/
def cells (s c : List Nat) : List (List Nat) := (boxIdx c).map (adds s)

theorem mem_cells : ∀ {s c x : List Nat}, s.length = c.length →
    (x ∈ cells s c ↔ inBox s c x = true) := by
  intro s
  induction s with
  | nil =>
    intro c x hl
    have : c = [] := List.length_eq_zero_iff.mp (by simpa using hl.symm)
    subst this
    cases x <;> simp [cells, boxIdx, adds, inBox]
  | cons s ss ih =>
    intro c x hl
    cases c with
    | nil => simp at hl
    | cons c cs =>
      simp only [List.length_cons, Nat.add_right_cancel_iff] at hl
      unfold cells at *
      cases x with
      | nil =>
        simp only [inBox, Bool.false_eq_true, iff_false, List.mem_map, not_exists, not_and]
        intro y hy
        have := boxIdx_length hy
        cases y with
        | nil => simp at this
        | cons y ys => simp [adds]
      | cons x xs =>
        simp only [boxIdx, List.map_flatMap, List.mem_flatMap, List.mem_range, List.mem_map, inBox,
          Bool.and_eq_true, decide_eq_true_eq]
        rw [← ih hl]
        simp only [List.mem_map]
        constructor
        · rintro ⟨a, ha, y, ⟨ys, hys, rfl⟩, e⟩
          simp only [adds, List.zipWith_cons_cons, List.cons.injEq] at e
          exact ⟨⟨by omega, by omega⟩, ys, hys, e.2⟩
        · rintro ⟨⟨h1, h2⟩, ys, hys, e⟩
          refine ⟨x - s, by omega, (x - s) :: ys, ⟨ys, hys, rfl⟩, ?_⟩
          simp only [adds, List.zipWith_cons_cons, List.cons.injEq]
          exact ⟨by omega, e⟩

/-- Result of `intersect`. -/
theorem intersect_some : ∀ {s c s' c' os oc : List Nat},
    s.length = c.length → s'.length = s.length → c'.length = s.length →
    intersect s c s' c' = some (os, oc) →
    os.length = s.length ∧ oc.length = s.length ∧
      (∀ x, inBox os oc x = true ↔ inBox s c x = true ∧ inBox s' c' x = true) ∧
      subarrayOK c oc (subs os s) = true ∧ subarrayOK c' oc (subs os s') = true ∧
      (∀ x : List Nat, x.length = s.length → adds (subs os s) x = subs (adds os x) s ∧
        adds (subs os s') x = subs (adds os x) s')
  | [], [], [], [], os, oc, _, _, _, h => by
    simp only [intersect, Option.some.injEq, Prod.mk.injEq] at h
    obtain ⟨rfl, rfl⟩ := h
    simp [subarrayOK, subs, adds]
  | s :: ss, c :: cs, s' :: ss', c' :: cs', os, oc, h1, h2, h3, h => by
    simp only [List.length_cons, Nat.add_right_cancel_iff] at h1 h2 h3
    simp only [intersect] at h
    split at h
    · simp at h
    · rename_i he
      rw [Option.map_eq_some_iff] at h
      obtain ⟨⟨os1, oc1⟩, hr, he2⟩ := h
      simp only [Prod.mk.injEq] at he2
      obtain ⟨rfl, rfl⟩ := he2
      obtain ⟨i1, i2, i3, i4, i5, i6⟩ := intersect_some h1 h2 h3 hr
      refine ⟨by simp [i1], by simp [i2], ?_, ?_, ?_, ?_⟩
      · intro x
        cases x with
        | nil => simp [inBox]
        | cons x xs =>
          simp only [inBox, Bool.and_eq_true, decide_eq_true_eq, i3]
          constructor
          · rintro ⟨⟨a, b⟩, d, e⟩
            exact ⟨⟨⟨by omega, by omega⟩, d⟩, ⟨by omega, by omega⟩, e⟩
          · rintro ⟨⟨⟨a, b⟩, d⟩, ⟨e, f⟩, g⟩
            exact ⟨⟨by omega, by omega⟩, d, g⟩
      · simp only [subs, List.zipWith_cons_cons, subarrayOK, Bool.and_eq_true, decide_eq_true_eq] at *
        exact ⟨⟨by omega, by omega⟩, i4⟩
      · simp only [subs, List.zipWith_cons_cons, subarrayOK, Bool.and_eq_true, decide_eq_true_eq] at *
        exact ⟨⟨by omega, by omega⟩, i5⟩
      · intro x hx
        cases x with
        | nil => simp at hx
        | cons x xs =>
          simp only [List.length_cons, Nat.add_right_cancel_iff] at hx
          obtain ⟨j1, j2⟩ := i6 xs hx
          simp only [subs, adds, List.zipWith_cons_cons, List.cons.injEq] at *
          exact ⟨⟨by omega, j1⟩, by omega, j2⟩
  | [], _ :: _, _, _, _, _, h, _, _, _ => by simp at h
  | _ :: _, [], _, _, _, _, h, _, _, _ => by simp at h
  | [], [], _ :: _, _, _, _, _, h, _, _ => by simp at h
  | _ :: _, _ :: _, [], _, _, _, _, h, _, _ => by simp at h
  | [], [], [], _ :: _, _, _, _, _, h, _ => by simp at h
  | _ :: _, _ :: _, _ :: _, [], _, _, _, _, h, _ => by simp at h

theorem intersect_none : ∀ {s c s' c' : List Nat},
    intersect s c s' c' = none → ∀ x, ¬ (inBox s c x = true ∧ inBox s' c' x = true)
  | s :: ss, c :: cs, s' :: ss', c' :: cs', h, x, hx => by
    cases x with
    | nil => simp [inBox] at hx
    | cons x xs =>
      simp only [inBox, Bool.and_eq_true, decide_eq_true_eq] at hx
      simp only [intersect] at h
      split at h
      · omega
      · rw [Option.map_eq_none_iff] at h
        exact intersect_none h xs ⟨hx.1.2, hx.2.2⟩
  | [], _, _, _, h, _, _ => by simp [intersect] at h
  | _ :: _, [], _, _, h, _, _ => by simp [intersect] at h
  | _ :: _, _ :: _, [], _, h, _, _ => by simp [intersect] at h
  | _ :: _, _ :: _, _ :: _, [], h, _, _ => by simp [intersect] at h

/-- An overlap reported by `intersect` has at least one cell. -/
theorem intersect_nonempty : ∀ {s c s' c' os oc : List Nat},
    intersect s c s' c' = some (os, oc) → s.length = c.length → s'.length = s.length →
      c'.length = s.length → inBox os oc os = true
  | [], [], [], [], os, oc, h, _, _, _ => by
    simp only [intersect, Option.some.injEq, Prod.mk.injEq] at h
    obtain ⟨rfl, rfl⟩ := h
    rfl
  | s :: ss, c :: cs, s' :: ss', c' :: cs', os, oc, h, h1, h2, h3 => by
    simp only [List.length_cons, Nat.add_right_cancel_iff] at h1 h2 h3
    simp only [intersect] at h
    split at h
    · simp at h
    · rw [Option.map_eq_some_iff] at h
      obtain ⟨⟨os1, oc1⟩, hr, he2⟩ := h
      simp only [Prod.mk.injEq] at he2
      obtain ⟨rfl, rfl⟩ := he2
      have := intersect_nonempty hr h1 h2 h3
      simp only [inBox, Bool.and_eq_true, decide_eq_true_eq]
      exact ⟨⟨by omega, by omega⟩, this⟩
  | [], _ :: _, _, _, _, _, _, h, _, _ => by simp at h
  | _ :: _, [], _, _, _, _, _, h, _, _ => by simp at h
  | [], [], _ :: _, _, _, _, _, _, h, _ => by simp at h
  | _ :: _, _ :: _, [], _, _, _, _, _, h, _ => by simp at h
  | [], [], [], _ :: _, _, _, _, _, _, h => by simp at h
  | _ :: _, _ :: _, _ :: _, [], _, _, _, _, _, h => by simp at h

end Verif
