import Verif.Lemmas.Regular

/-
Merging rows leaves two slots that point to the same row: one that is kept and one after the kept ones.
-/

namespace Verif
open Spec

/-- The first two rows can be merged in dimension `d`. -/
def FirstTwo (d : Nat) : List CRow → Prop
  | x :: y :: _ => canMerge false d x.1 x.2 y.1 y.2 = true
  | _ => False

/-- In the last round that merges anything, the first two rows are merged. -/
def LM : Nat → List CRow → Prop
  | 0, _ => False
  | d + 1, l => LM d (mergeDimL false d l) ∨
      (FirstTwo d l ∧ (mergeAllL false d (mergeDimL false d l)).length = (mergeDimL false d l).length)

/-! ### The arrays -/

theorem mergeStep_cases (u : Bool) (d off : Nat) (a : Arr) (j i : Nat) :
    (mergeStep u d off (a, j) i = (a.write (off + j) ((a.get (off + j)).1, mergeCount u d (a.get (off + j)).2 (a.get (off + i)).2), j) ∧
      canMerge u d (a.get (off + j)).1 (a.get (off + j)).2 (a.get (off + i)).1 (a.get (off + i)).2 = true) ∨
    (mergeStep u d off (a, j) i = (a.copy (off + (j + 1)) (off + i), j + 1) ∧
      canMerge u d (a.get (off + j)).1 (a.get (off + j)).2 (a.get (off + i)).1 (a.get (off + i)).2 = false) := by
  unfold mergeStep
  by_cases h : canMerge u d (a.get (off + j)).1 (a.get (off + j)).2 (a.get (off + i)).1 (a.get (off + i)).2 = true
  · left; simp [h]
  · right; simp [h]

theorem mergeLoop_le (u : Bool) (d off : Nat) : ∀ (r : Nat) (a : Arr) (j i : Nat),
    ((List.range' i r).foldl (mergeStep u d off) (a, j)).2 ≤ j + r
  | 0, _, _, _ => by simp
  | r + 1, a, j, i => by
    rw [List.range'_succ, List.foldl_cons]
    rcases mergeStep_cases u d off a j i with ⟨e, _⟩ | ⟨e, _⟩ <;> rw [e]
    · have := mergeLoop_le u d off r (a.write (off + j) ((a.get (off + j)).1, mergeCount u d (a.get (off + j)).2 (a.get (off + i)).2)) j (i + 1)
      omega
    · have := mergeLoop_le u d off r (a.copy (off + (j + 1)) (off + i)) (j + 1) (i + 1)
      omega

theorem copy_self (a : Arr) (i : Nat) : a.copy i i = a := by
  unfold Arr.copy
  congr 1
  funext k
  split
  · next h => rw [h]
  · rfl

theorem mergeLoop_same (u : Bool) (d off : Nat) : ∀ (r : Nat) (a : Arr) (j : Nat),
    ((List.range' (j + 1) r).foldl (mergeStep u d off) (a, j)).2 = j + r →
    ((List.range' (j + 1) r).foldl (mergeStep u d off) (a, j)).1 = a
  | 0, _, _, _ => rfl
  | r + 1, a, j, h => by
    rw [List.range'_succ, List.foldl_cons] at h ⊢
    rcases mergeStep_cases u d off a j (j + 1) with ⟨e, _⟩ | ⟨e, _⟩ <;> rw [e] at h ⊢
    · have := mergeLoop_le u d off r (a.write (off + j) ((a.get (off + j)).1, mergeCount u d (a.get (off + j)).2 (a.get (off + (j + 1))).2)) j (j + 1 + 1)
      omega
    · rw [copy_self] at h ⊢
      exact mergeLoop_same u d off r a (j + 1) (by omega)

/-- After a merge there is a gap between the slot written to and the slot read. -/
theorem mergeLoop_gap (u : Bool) (d off : Nat) : ∀ (r : Nat) (a : Arr) (j i : Nat), j + 1 < i →
    (∀ k, ((List.range' i r).foldl (mergeStep u d off) (a, j)).2 < k →
      ((List.range' i r).foldl (mergeStep u d off) (a, j)).1.ptr (off + k) = a.ptr (off + k)) ∧
    j ≤ ((List.range' i r).foldl (mergeStep u d off) (a, j)).2 ∧
    (j < ((List.range' i r).foldl (mergeStep u d off) (a, j)).2 →
      ∃ p, ((List.range' i r).foldl (mergeStep u d off) (a, j)).2 < p ∧ p < i + r ∧
        ((List.range' i r).foldl (mergeStep u d off) (a, j)).1.ptr
          (off + ((List.range' i r).foldl (mergeStep u d off) (a, j)).2) = a.ptr (off + p))
  | 0, a, j, i, _ => ⟨fun _ _ => rfl, Nat.le_refl _, fun h => absurd h (Nat.lt_irrefl _)⟩
  | r + 1, a, j, i, hij => by
    rw [List.range'_succ, List.foldl_cons]
    rcases mergeStep_cases u d off a j i with ⟨e, _⟩ | ⟨e, _⟩ <;> rw [e]
    · obtain ⟨h1, h2, h3⟩ := mergeLoop_gap u d off r
        (a.write (off + j) ((a.get (off + j)).1, mergeCount u d (a.get (off + j)).2 (a.get (off + i)).2)) j (i + 1) (by omega)
      refine ⟨fun k hk => h1 k hk, h2, ?_⟩
      intro hl
      obtain ⟨p, p1, p2, p3⟩ := h3 hl
      exact ⟨p, p1, by omega, p3⟩
    · obtain ⟨h1, h2, h3⟩ := mergeLoop_gap u d off r (a.copy (off + (j + 1)) (off + i)) (j + 1) (i + 1) (by omega)
      have hc : ∀ k, j + 1 < k → (a.copy (off + (j + 1)) (off + i)).ptr (off + k) = a.ptr (off + k) := by
        intro k hk
        simp only [Arr.copy]
        rw [if_neg (by omega)]
      have hle := mergeLoop_le u d off r (a.copy (off + (j + 1)) (off + i)) (j + 1) (i + 1)
      obtain ⟨res, hres⟩ : ∃ res, res = (List.range' (i + 1) r).foldl (mergeStep u d off) (a.copy (off + (j + 1)) (off + i), j + 1) := ⟨_, rfl⟩
      rw [← hres] at h1 h2 h3 hle ⊢
      refine ⟨fun k hk => by rw [h1 k hk, hc k (by omega)], by omega, ?_⟩
      intro _
      by_cases hl : j + 1 < res.2
      · obtain ⟨p, p1, p2, p3⟩ := h3 hl
        exact ⟨p, p1, by omega, by rw [p3, hc p (by omega)]⟩
      · have e2 : res.2 = j + 1 := by omega
        refine ⟨i, by omega, by omega, ?_⟩
        -- nothing is copied to the slot afterwards
        have hkeep : res.1.ptr (off + (j + 1)) = (a.copy (off + (j + 1)) (off + i)).ptr (off + (j + 1)) := by
          rw [hres]
          have : ∀ (r : Nat) (b : Arr) (j i : Nat), ((List.range' i r).foldl (mergeStep u d off) (b, j)).2 = j →
              ((List.range' i r).foldl (mergeStep u d off) (b, j)).1.ptr = b.ptr := by
            intro r
            induction r with
            | zero => intro b j i _; rfl
            | succ r ih =>
              intro b j i h
              rw [List.range'_succ, List.foldl_cons] at h ⊢
              rcases mergeStep_cases u d off b j i with ⟨e, _⟩ | ⟨e, _⟩ <;> rw [e] at h ⊢
              · rw [ih _ _ _ h]; rfl
              · have hge : ∀ (r : Nat) (b : Arr) (j i : Nat), j ≤ ((List.range' i r).foldl (mergeStep u d off) (b, j)).2 := by
                  intro r
                  induction r with
                  | zero => intro b j i; exact Nat.le_refl _
                  | succ r ih =>
                    intro b j i
                    rw [List.range'_succ, List.foldl_cons]
                    rcases mergeStep_cases u d off b j i with ⟨e, _⟩ | ⟨e, _⟩ <;> rw [e]
                    · exact ih _ _ _
                    · exact Nat.le_trans (Nat.le_succ j) (ih _ _ _)
                have := hge r (b.copy (off + (j + 1)) (off + i)) (j + 1) (i + 1)
                omega
          rw [this _ _ _ _ (by rw [← hres]; exact e2)]
        rw [e2, hkeep]
        simp [Arr.copy]

theorem mergeDim_loop (u : Bool) (d off : Nat) (a : Arr) (len : Nat) :
    mergeDim u d off a (len + 1) = (((List.range' 1 len).foldl (mergeStep u d off) (a, 0)).1,
      ((List.range' 1 len).foldl (mergeStep u d off) (a, 0)).2 + 1) := by
  unfold mergeDim
  have hr : (List.range (len + 1 - 1)).foldl (fun st i => mergeStep u d off st (i + 1)) (a, 0) =
      (List.range' 1 len).foldl (mergeStep u d off) (a, 0) := by
    rw [List.range'_eq_map_range, List.foldl_map]
    simp only [Nat.add_sub_cancel, Nat.add_comm]
  rw [hr]

theorem mergeDim_same (u : Bool) (d off : Nat) (a : Arr) {len : Nat} (hl : 0 < len) (h : (mergeDim u d off a len).2 = len) :
    mergeDim u d off a len = (a, len) := by
  obtain ⟨n, rfl⟩ : ∃ n, len = n + 1 := ⟨len - 1, by omega⟩
  rw [mergeDim_loop] at h ⊢
  simp only at h
  have e := mergeLoop_same u d off n a 0 (by simp only [Nat.zero_add]; omega)
  simp only [Nat.zero_add] at e
  rw [e, h]

theorem mergeDim_alias {d : Nat} {a : Arr} {len : Nat} (hf : FirstTwo d (a.view 0 len)) (h2 : 2 ≤ (mergeDim false d 0 a len).2) :
    ∃ p, (mergeDim false d 0 a len).2 ≤ p ∧ p < len ∧
      (mergeDim false d 0 a len).1.ptr ((mergeDim false d 0 a len).2 - 1) = (mergeDim false d 0 a len).1.ptr p := by
  obtain ⟨n, rfl⟩ : ∃ n, len = n + 2 := by
    match len, hf with
    | 0, hf => simp [Arr.view, FirstTwo] at hf
    | 1, hf => simp [Arr.view, FirstTwo] at hf
    | n + 2, _ => exact ⟨n, rfl⟩
  have hm : canMerge false d (a.get 0).1 (a.get 0).2 (a.get 1).1 (a.get 1).2 = true := by
    have e : a.view 0 (n + 2) = a.get 0 :: a.get 1 :: ((List.range n).map (fun k => a.get (0 + (1 + (k + 1))))) := by
      rw [view_cons, map_range_succ']
    rw [e] at hf
    exact hf
  rw [mergeDim_loop] at h2 ⊢
  rw [List.range'_succ, List.foldl_cons] at h2 ⊢
  rcases mergeStep_cases false d 0 a 0 1 with ⟨e, _⟩ | ⟨_, e2⟩
  · rw [e] at h2 ⊢
    obtain ⟨h3, _, h5⟩ := mergeLoop_gap false d 0 n
      (a.write (0 + 0) ((a.get (0 + 0)).1, mergeCount false d (a.get (0 + 0)).2 (a.get (0 + 1)).2)) 0 (1 + 1) (by omega)
    simp only at h2 ⊢
    obtain ⟨p, p1, p2, p3⟩ := h5 (by omega)
    refine ⟨p, by omega, by omega, ?_⟩
    have h6 := h3 p p1
    simp only [Nat.zero_add] at p3 h6
    simp only [Nat.add_sub_cancel, Nat.zero_add]
    rw [h6]
    exact p3
  · simp only [Nat.zero_add] at e2
    rw [hm] at e2
    simp at e2

theorem mergeL_length (u : Bool) (d : Nat) : ∀ (x : CRow) (r : List CRow), (mergeL u d x r).length ≤ r.length + 1
  | x, [] => by simp [mergeL]
  | x, y :: r => by
    unfold mergeL
    split
    · have := mergeL_length u d (x.1, mergeCount u d x.2 y.2) r
      simp only [List.length_cons]
      omega
    · have := mergeL_length u d y r
      simp only [List.length_cons]
      omega

theorem mergeDimL_length (u : Bool) (d : Nat) (l : List CRow) : (mergeDimL u d l).length ≤ l.length := by
  cases l with
  | nil => simp [mergeDimL]
  | cons x r => exact mergeL_length u d x r

theorem mergeAllL_length (u : Bool) : ∀ (nd : Nat) (l : List CRow), (mergeAllL u nd l).length ≤ l.length
  | 0, _ => Nat.le_refl _
  | nd + 1, l => Nat.le_trans (mergeAllL_length u nd (mergeDimL u nd l)) (mergeDimL_length u nd l)

theorem mergeBlocks_same : ∀ (nd : Nat) (a : Arr) (len : Nat), 0 < len → Distinct a 0 len →
    (mergeAllL false nd (a.view 0 len)).length = len → mergeBlocks false nd 0 a len = (a, len)
  | 0, _, _, _, _, _ => rfl
  | nd + 1, a, len, hl, hd, h => by
    obtain ⟨n, rfl⟩ : ∃ n, len = n + 1 := ⟨len - 1, by omega⟩
    obtain ⟨h1, _⟩ := mergeDim_ok false nd 0 a n hd
    have hlen : (mergeDim false nd 0 a (n + 1)).2 = (mergeDimL false nd (a.view 0 (n + 1))).length := by
      rw [← h1.view, view_length]
    rw [mergeAllL] at h
    have h2 := mergeAllL_length false nd (mergeDimL false nd (a.view 0 (n + 1)))
    have h3 := mergeDimL_length false nd (a.view 0 (n + 1))
    rw [view_length] at h3
    have e := mergeDim_same false nd 0 a hl (by omega)
    have hv := h1.view
    rw [e] at hv
    simp only at hv
    rw [mergeBlocks, e]
    exact mergeBlocks_same nd a (n + 1) hl hd (by rw [hv]; exact h)

theorem mergeBlocks_alias : ∀ (nd : Nat) (a : Arr) (len : Nat), 0 < len → Distinct a 0 len → LM nd (a.view 0 len) →
    2 ≤ (mergeBlocks false nd 0 a len).2 →
    ∃ p, (mergeBlocks false nd 0 a len).2 ≤ p ∧ p < len ∧
      (mergeBlocks false nd 0 a len).1.ptr ((mergeBlocks false nd 0 a len).2 - 1) = (mergeBlocks false nd 0 a len).1.ptr p
  | 0, _, _, _, _, h, _ => absurd h (by simp [LM])
  | nd + 1, a, len, hl, hd, h, h2 => by
    obtain ⟨n, rfl⟩ : ∃ n, len = n + 1 := ⟨len - 1, by omega⟩
    obtain ⟨t1, _⟩ := mergeDim_ok false nd 0 a n hd
    have hpos : 0 < (mergeDim false nd 0 a (n + 1)).2 := by simp [mergeDim]
    rw [LM, ← t1.view] at h
    rw [mergeBlocks] at h2 ⊢
    rcases h with h | ⟨hf, h⟩
    · obtain ⟨p, p1, p2, p3⟩ := mergeBlocks_alias nd _ _ hpos t1.inj h h2
      exact ⟨p, p1, Nat.lt_of_lt_of_le p2 t1.le, p3⟩
    · rw [view_length] at h
      rw [mergeBlocks_same nd _ _ hpos t1.inj h] at h2 ⊢
      exact mergeDim_alias hf h2

/-! ### Products -/

theorem firstTwo_consAll {A : List (Nat × Nat)} (hA : A ≠ []) {d : Nat} {X : List CRow} (h : FirstTwo d X) :
    FirstTwo (d + 1) (consAll A X) := by
  obtain ⟨a, A, rfl⟩ := List.exists_cons_of_ne_nil hA
  match X, h with
  | x :: y :: X, h =>
    rw [consAll_cons]
    simp only [List.map_cons, List.cons_append, FirstTwo, canMerge_consSeg, decide_true, Bool.true_and]
    exact h

theorem lm_inner {A : List (Nat × Nat)} (hA : SegsOK A) : ∀ (n : Nat) {X : List CRow}, X ≠ [] → LM n X →
    (mergeDimL false 0 (consAll A (mergeAllL false n X))).length = (consAll A (mergeAllL false n X)).length →
    LM (n + 1) (consAll A X)
  | 0, _, _, h, _ => absurd h (by simp [LM])
  | n + 1, X, hX, h, hl => by
    rw [LM, mergeDimL_consAll n hX hA.chain]
    rw [LM] at h
    rcases h with h | ⟨h1, h2⟩
    · exact .inl (lm_inner hA n (mergeDimL_ne hX) h hl)
    · right
      refine ⟨firstTwo_consAll hA.ne h1, ?_⟩
      rw [mergeAllL_consAll hA.chain n (mergeDimL_ne hX)]
      rw [mergeAllL] at hl
      rw [hl, consAll_length, consAll_length, h2]

theorem lm_outer {A : List (Nat × Nat)} (hA : SegsOK A) : ∀ (n : Nat) {X : List CRow}, X ≠ [] →
    FirstTwo 0 (consAll A (mergeAllL false n X)) → LM (n + 1) (consAll A X)
  | 0, _, _, h => .inr ⟨h, rfl⟩
  | n + 1, X, hX, h => by
    rw [LM, mergeDimL_consAll n hX hA.chain]
    exact .inl (lm_outer hA n (mergeDimL_ne hX) h)

/-- The segments are all apart, or the first two touch. -/
def Unif (A : List (Nat × Nat)) : Prop := joinSegs A = A ∨ ∃ x y r, A = x :: y :: r ∧ x.1 + x.2 = y.1

theorem lm_prod {As : List (List (Nat × Nat))} (h : ∀ A ∈ As, SegsOK A ∧ Unif A)
    (hl : (prodL (nrm As)).length ≠ (prodL As).length) : LM As.length (prodL As) := by
  induction As with
  | nil => exact absurd rfl hl
  | cons A R ih =>
    have hR : ∀ B ∈ R, SegsOK B := fun B hB => (h B (by simp [hB])).1
    have hA := h A (by simp)
    have hne := prodL_ne hR
    rw [List.length_cons, prodL]
    rw [nrm, prodL, prodL, consAll_length, consAll_length] at hl
    by_cases hS : Singles (nrm R) = true
    · rw [if_pos hS] at hl
      obtain ⟨y, hy⟩ := List.length_eq_one_iff.mp ((singles_iff (nrm_ok hR)).mp hS)
      have hm : mergeAllL false R.length (prodL R) = [y] := by rw [mergeAllL_prod hR, hy]
      rcases hA.2 with hu | ⟨x, z, r, rfl, hxz⟩
      · refine lm_inner hA.1 _ hne (ih (fun B hB => h B (by simp [hB])) ?_) ?_
        · rw [hu] at hl
          intro e
          rw [e] at hl
          exact hl rfl
        · rw [hm, mergeDimL_one, hu]
      · refine lm_outer hA.1 _ hne ?_
        rw [hm, consAll_one]
        simp only [List.map_cons, FirstTwo, consSeg, canMerge, follows]
        simp [hxz]
    · rw [if_neg hS] at hl
      refine lm_inner hA.1 _ hne (ih (fun B hB => h B (by simp [hB])) ?_) ?_
      · intro e
        rw [e] at hl
        exact hl rfl
      · have hs := singles_iff (nrm_ok hR)
        rw [mergeAllL_prod hR, mergeDimL_zero_keep hA.1.pos (ends_ne (prodL_nodup (nrm_ok hR)) (fun e => hS (hs.mpr e)))]

end Verif
