import Verif.Lemmas.Reorder

namespace Verif

/-! ### merge_blocks on lists -/

/-- `merge_blocks` without pointers: one round. -/
def mergeL (u : Bool) (d : Nat) (x : CRow) : List CRow → List CRow
  | [] => [x]
  | y :: r =>
    if canMerge u d x.1 x.2 y.1 y.2 then mergeL u d (x.1, mergeCount u d x.2 y.2) r else x :: mergeL u d y r

def mergeDimL (u : Bool) (d : Nat) : List CRow → List CRow
  | [] => []
  | x :: r => mergeL u d x r

def mergeAllL (u : Bool) : Nat → List CRow → List CRow
  | 0, l => l
  | d + 1, l => mergeAllL u d (mergeDimL u d l)

theorem mergeL_ne (u : Bool) (d : Nat) (x : CRow) (r : List CRow) : mergeL u d x r ≠ [] := by
  induction r generalizing x with
  | nil => simp [mergeL]
  | cons y r ih => unfold mergeL; split <;> simp [ih]

theorem mergeDimL_ne {u : Bool} {d : Nat} {l : List CRow} (h : l ≠ []) : mergeDimL u d l ≠ [] := by
  cases l with
  | nil => exact absurd rfl h
  | cons x r => exact mergeL_ne u d x r

/-- Live slots of the loop of `merge_blocks`. -/
def Live (j i r k : Nat) : Prop := k ≤ j ∨ (i ≤ k ∧ k < i + r)

theorem view_succ (a : Arr) (off n : Nat) : a.view off (n + 1) = a.view off n ++ [a.get (off + n)] := by
  simp [Arr.view, List.range_succ]

theorem view_congr {a b : Arr} {off n : Nat} (h : ∀ k, k < n → a.get (off + k) = b.get (off + k)) :
    a.view off n = b.view off n := by
  unfold Arr.view
  apply List.map_congr_left
  intro k hk
  exact h k (List.mem_range.mp hk)

theorem map_range_congr {α : Type} {n : Nat} {f g : Nat → α} (h : ∀ k, k < n → f k = g k) :
    (List.range n).map f = (List.range n).map g :=
  List.map_congr_left (fun k hk => h k (List.mem_range.mp hk))

theorem map_range_succ' {α : Type} (n : Nat) (f : Nat → α) :
    (List.range (n + 1)).map f = f 0 :: (List.range n).map (fun k => f (k + 1)) := by
  rw [List.range_succ_eq_map]; simp [List.map_map, Function.comp_def]

/-- Result of the loop over `i`. -/
structure MergeRes (off : Nat) (a : Arr) (j i r : Nat) (rows : List CRow) (a' : Arr) (j' : Nat) : Prop where
  view : a'.view off (j' + 1) = rows
  le : j' < i + r
  ptr : ∀ k, k ≤ j' → ∃ m, Live j i r m ∧ a'.ptr (off + k) = a.ptr (off + m)
  inj : ∀ k l, k ≤ j' → l ≤ j' → a'.ptr (off + k) = a'.ptr (off + l) → k = l
  mem : ∀ p, (∀ m, Live j i r m → p ≠ a.ptr (off + m)) → a'.mem p = a.mem p
  out : ∀ k, k < off ∨ off + i + r ≤ k → a'.ptr k = a.ptr k
  first : a'.ptr off = a.ptr off

theorem mergeLoop_ok (u : Bool) (d off : Nat) : ∀ (r : Nat) (a : Arr) (j i : Nat), j < i →
    (∀ k l, Live j i r k → Live j i r l → a.ptr (off + k) = a.ptr (off + l) → k = l) →
    MergeRes off a j i r
      (a.view off j ++ mergeL u d (a.get (off + j)) ((List.range r).map (fun k => a.get (off + (i + k)))))
      ((List.range' i r).foldl (mergeStep u d off) (a, j)).1
      ((List.range' i r).foldl (mergeStep u d off) (a, j)).2 := by
  intro r
  induction r with
  | zero =>
    intro a j i hji hinj
    simp only [List.range'_zero, List.foldl_nil, List.range_zero, List.map_nil, mergeL]
    exact ⟨view_succ a off j, by omega, fun k hk => ⟨k, .inl hk, rfl⟩,
      fun k l hk hl => hinj k l (.inl hk) (.inl hl), fun _ _ => rfl, fun _ _ => rfl, rfl⟩
  | succ r ih =>
    intro a j i hji hinj
    rw [List.range'_succ, List.foldl_cons, map_range_succ', mergeL]
    simp only [Nat.add_zero]
    by_cases hm : canMerge u d (a.get (off + j)).1 (a.get (off + j)).2 (a.get (off + i)).1 (a.get (off + i)).2
    · have hst : mergeStep u d off (a, j) i =
          (a.write (off + j) ((a.get (off + j)).1, mergeCount u d (a.get (off + j)).2 (a.get (off + i)).2), j) := by
        simp only [mergeStep]; rw [if_pos hm]
      rw [hst, if_pos hm]
      obtain ⟨v, hv⟩ : ∃ v, v = ((a.get (off + j)).1, mergeCount u d (a.get (off + j)).2 (a.get (off + i)).2) := ⟨_, rfl⟩
      rw [← hv]
      have hg : ∀ k, Live j i (r + 1) k → k ≠ j → (a.write (off + j) v).get (off + k) = a.get (off + k) := by
        intro k hk hkj
        simp only [Arr.get, Arr.write]
        rw [if_neg]
        intro he
        exact hkj (hinj k j hk (.inl (Nat.le_refl _)) he)
      have hgj : (a.write (off + j) v).get (off + j) = v := by simp [Arr.get, Arr.write]
      have hl : ∀ k, Live j (i + 1) r k → Live j i (r + 1) k := by
        intro k hk; unfold Live at *; omega
      have res := ih (a.write (off + j) v) j (i + 1) (by omega)
        (fun k l hk hl' he => hinj k l (hl k hk) (hl l hl') he)
      rw [hgj] at res
      refine ⟨?_, by have := res.le; omega, ?_, res.inj, ?_, ?_, res.first⟩
      · rw [res.view]
        congr 1
        · apply view_congr
          intro k hk
          exact hg k (.inl (by omega)) (by omega)
        · congr 1
          apply map_range_congr
          intro k hk
          rw [hg (i + 1 + k) (by unfold Live; omega) (by omega)]
          congr 1
          omega
      · intro k hk
        obtain ⟨m, h1, h2⟩ := res.ptr k hk
        exact ⟨m, hl m h1, h2⟩
      · intro p hp
        rw [res.mem p (fun m hm' => hp m (hl m hm'))]
        simp only [Arr.write]
        rw [if_neg (hp j (.inl (Nat.le_refl _)))]
      · intro k hk
        rw [res.out k (by omega)]
        rfl
    · have hst : mergeStep u d off (a, j) i = (a.copy (off + (j + 1)) (off + i), j + 1) := by
        simp only [mergeStep]; rw [if_neg hm]
      rw [hst, if_neg hm]
      have hp : ∀ k, k ≠ j + 1 → (a.copy (off + (j + 1)) (off + i)).ptr (off + k) = a.ptr (off + k) := by
        intro k hk
        simp only [Arr.copy]
        rw [if_neg (by omega)]
      have hpj : (a.copy (off + (j + 1)) (off + i)).ptr (off + (j + 1)) = a.ptr (off + i) := by simp [Arr.copy]
      have hg : ∀ k, k ≠ j + 1 → (a.copy (off + (j + 1)) (off + i)).get (off + k) = a.get (off + k) := by
        intro k hk
        unfold Arr.get
        rw [hp k hk]
        rfl
      have hgj : (a.copy (off + (j + 1)) (off + i)).get (off + (j + 1)) = a.get (off + i) := by
        unfold Arr.get
        rw [hpj]
        rfl
      have hlive : ∀ k, Live (j + 1) (i + 1) r k → ∃ m, Live j i (r + 1) m ∧
          (a.copy (off + (j + 1)) (off + i)).ptr (off + k) = a.ptr (off + m) ∧ (m = if k = j + 1 then i else k) := by
        intro k hk
        by_cases hkj : k = j + 1
        · subst hkj
          exact ⟨i, by unfold Live; omega, hpj, by simp⟩
        · exact ⟨k, by unfold Live at *; omega, hp k hkj, by simp [hkj]⟩
      have res := ih (a.copy (off + (j + 1)) (off + i)) (j + 1) (i + 1) (by omega) (by
        intro k l hk hl he
        obtain ⟨m, m1, m2, m3⟩ := hlive k hk
        obtain ⟨n, n1, n2, n3⟩ := hlive l hl
        rw [m2, n2] at he
        have := hinj m n m1 n1 he
        unfold Live at hk hl
        split at m3 <;> split at n3 <;> omega)
      rw [hgj] at res
      refine ⟨?_, by have := res.le; omega, ?_, res.inj, ?_, ?_, ?_⟩
      · rw [res.view, view_succ, hg j (by omega), List.append_assoc]
        congr 1
        · apply view_congr
          intro k hk
          exact hg k (by omega)
        · simp only [List.singleton_append]
          congr 2
          apply map_range_congr
          intro k hk
          rw [hg (i + 1 + k) (by omega)]
          congr 1
          omega
      · intro k hk
        obtain ⟨m, h1, h2⟩ := res.ptr k hk
        obtain ⟨m', h3, h4, _⟩ := hlive m h1
        exact ⟨m', h3, by rw [h2, h4]⟩
      · intro p hp'
        rw [res.mem p]
        · rfl
        · intro m hm'
          obtain ⟨m', h3, h4, _⟩ := hlive m hm'
          rw [h4]
          exact hp' m' h3
      · intro k hk
        rw [res.out k (by omega)]
        simp only [Arr.copy]
        rw [if_neg (by omega)]
      · rw [res.first]
        have := hp 0 (by omega)
        simpa using this

/-- Effect of operations on the slots `off .. off + len` that turn their contents into `rows`. -/
structure Turned (off len : Nat) (a : Arr) (rows : List CRow) (a' : Arr) (len' : Nat) : Prop where
  view : a'.view off len' = rows
  le : len' ≤ len
  ptr : ∀ k, k < len' → ∃ m, m < len ∧ a'.ptr (off + k) = a.ptr (off + m)
  inj : ∀ k l, k < len' → l < len' → a'.ptr (off + k) = a'.ptr (off + l) → k = l
  mem : ∀ p, (∀ m, m < len → p ≠ a.ptr (off + m)) → a'.mem p = a.mem p
  out : ∀ k, k < off ∨ off + len ≤ k → a'.ptr k = a.ptr k

/-- The slots `off .. off + len` point to different rows. -/
def Distinct (a : Arr) (off len : Nat) : Prop :=
  ∀ k l, k < len → l < len → a.ptr (off + k) = a.ptr (off + l) → k = l

theorem view_cons (a : Arr) (off n : Nat) :
    a.view off (n + 1) = a.get off :: (List.range n).map (fun k => a.get (off + (1 + k))) := by
  unfold Arr.view
  rw [map_range_succ']
  simp only [Nat.add_zero]
  congr 1
  apply map_range_congr
  intro k _
  congr 1
  omega

theorem mergeDim_ok (u : Bool) (d off : Nat) (a : Arr) (len : Nat) (hd : Distinct a off (len + 1)) :
    Turned off (len + 1) a (mergeDimL u d (a.view off (len + 1))) (mergeDim u d off a (len + 1)).1
      (mergeDim u d off a (len + 1)).2 ∧ (mergeDim u d off a (len + 1)).1.ptr off = a.ptr off := by
  have hr : (List.range (len + 1 - 1)).foldl (fun st i => mergeStep u d off st (i + 1)) (a, 0) =
      (List.range' 1 len).foldl (mergeStep u d off) (a, 0) := by
    rw [List.range'_eq_map_range, List.foldl_map]
    simp only [Nat.add_sub_cancel, Nat.add_comm]
  have res := mergeLoop_ok u d off len a 0 1 (by omega) (by
    intro k l hk hl he
    unfold Live at hk hl
    exact hd k l (by omega) (by omega) he)
  unfold mergeDim
  rw [hr]
  refine ⟨⟨?_, by have := res.le; simp only; omega, ?_, ?_, ?_, ?_⟩, res.first⟩
  · rw [res.view, view_cons]
    simp [mergeDimL, Arr.view]
  · intro k hk
    obtain ⟨m, h1, h2⟩ := res.ptr k (by simp only at hk; omega)
    exact ⟨m, by unfold Live at h1; omega, h2⟩
  · intro k l hk hl
    simp only at hk hl
    exact res.inj k l (by omega) (by omega)
  · intro p hp
    exact res.mem p (fun m hm => hp m (by unfold Live at hm; omega))
  · intro k hk
    exact res.out k (by omega)

theorem Turned.trans {off len : Nat} {a b c : Arr} {r1 r2 : List CRow} {l1 l2 : Nat}
    (h1 : Turned off len a r1 b l1) (h2 : Turned off l1 b r2 c l2) : Turned off len a r2 c l2 := by
  refine ⟨h2.view, by have := h1.le; have := h2.le; omega, ?_, h2.inj, ?_, ?_⟩
  · intro k hk
    obtain ⟨m, m1, m2⟩ := h2.ptr k hk
    obtain ⟨n, n1, n2⟩ := h1.ptr m m1
    exact ⟨n, n1, by rw [m2, n2]⟩
  · intro p hp
    rw [h2.mem p, h1.mem p hp]
    intro m hm
    obtain ⟨n, n1, n2⟩ := h1.ptr m hm
    rw [n2]
    exact hp n n1
  · intro k hk
    rw [h2.out k (by have := h1.le; omega), h1.out k hk]

theorem Turned.refl {off len : Nat} {a : Arr} (hd : Distinct a off len) : Turned off len a (a.view off len) a len :=
  ⟨rfl, Nat.le_refl _, fun k hk => ⟨k, hk, rfl⟩, hd, fun _ _ => rfl, fun _ _ => rfl⟩

theorem view_length (a : Arr) (off n : Nat) : (a.view off n).length = n := by simp [Arr.view]

/-- `merge_blocks` on distinct slots is the list version. -/
theorem mergeBlocks_ok (u : Bool) (off : Nat) : ∀ (nd : Nat) (a : Arr) (len : Nat), 0 < len → Distinct a off len →
    Turned off len a (mergeAllL u nd (a.view off len)) (mergeBlocks u nd off a len).1
      (mergeBlocks u nd off a len).2 ∧ (mergeBlocks u nd off a len).1.ptr off = a.ptr off
  | 0, _, _, _, hd => ⟨Turned.refl hd, rfl⟩
  | nd + 1, a, len, hl, hd => by
    obtain ⟨n, rfl⟩ : ∃ n, len = n + 1 := ⟨len - 1, by omega⟩
    obtain ⟨h1, h2⟩ := mergeDim_ok u nd off a n hd
    have hpos : 0 < (mergeDim u nd off a (n + 1)).2 := by simp [mergeDim]
    obtain ⟨h3, h4⟩ := mergeBlocks_ok u off nd (mergeDim u nd off a (n + 1)).1 (mergeDim u nd off a (n + 1)).2 hpos
      h1.inj
    rw [h1.view] at h3
    unfold mergeBlocks mergeAllL
    exact ⟨h1.trans h3, by rw [h4, h2]⟩

/-- Sorting: the slots are permuted according to `idx`. -/
theorem sortblocks_ok {srt : List (List Nat) → List Nat} (hs : IsSort srt) (off len : Nat) (a : Arr)
    (hd : Distinct a off len) :
    ∃ a', sortblocks srt off len a = .ok a' ∧
      Turned off len a ((srt ((a.view off len).map Prod.fst)).map (fun i => a.get (off + i))) a' len ∧
      ∀ i, i < len → a'.ptr (off + i) = a.ptr (off + (srt ((a.view off len).map Prod.fst)).getD i i) := by
  have hp := (hs ((a.view off len).map Prod.fst)).1
  rw [List.length_map, view_length] at hp
  obtain ⟨idx, hidx⟩ : ∃ idx, idx = srt ((a.view off len).map Prod.fst) := ⟨_, rfl⟩
  rw [← hidx] at hp ⊢
  obtain ⟨f, idx', e, hf⟩ := reorder_ok (len := len) (fun i => a.ptr (off + i)) idx hp
  have hlen : idx.length = len := by simpa using hp.length_eq
  have hlt : ∀ i, i < len → idx.getD i i < len := by
    intro i hi
    have : idx.getD i i = idx[i] := by
      simp [List.getD_eq_getElem?_getD, List.getElem?_eq_getElem (show i < idx.length by omega)]
    rw [this]
    exact List.mem_range.mp (hp.mem_iff.mp (List.getElem_mem _))
  have hptr : ∀ k, k < len → (if off ≤ off + k ∧ off + k < off + len then f (off + k - off) else a.ptr (off + k)) =
      a.ptr (off + idx.getD k k) := by
    intro k hk
    rw [if_pos ⟨by omega, by omega⟩]
    have : off + k - off = k := by omega
    rw [this, hf k hk]
  refine ⟨{ a with ptr := fun k => if off ≤ k ∧ k < off + len then f (k - off) else a.ptr k }, ?_, ⟨?_, Nat.le_refl _, ?_, ?_, ?_, ?_⟩, ?_⟩
  · unfold sortblocks
    simp only [← hidx]
    rw [e]
    rfl
  · apply List.ext_getElem
    · simp [view_length, hlen]
    · intro i h1 h2
      have hi : i < len := by simpa [view_length] using h1
      simp only [Arr.view, List.getElem_map, List.getElem_range, Arr.get]
      rw [hptr i hi]
      simp [List.getD_eq_getElem?_getD, List.getElem?_eq_getElem (show i < idx.length by omega)]
  · intro k hk
    exact ⟨_, hlt k hk, hptr k hk⟩
  · intro k l hk hl he
    simp only at he
    rw [hptr k hk, hptr l hl] at he
    have h1 := hd _ _ (hlt k hk) (hlt l hl) he
    have hnd : idx.Nodup := hp.nodup_iff.mpr List.nodup_range
    have e1 : idx.getD k k = idx[k] := by
      simp [List.getD_eq_getElem?_getD, List.getElem?_eq_getElem (show k < idx.length by omega)]
    have e2 : idx.getD l l = idx[l] := by
      simp [List.getD_eq_getElem?_getD, List.getElem?_eq_getElem (show l < idx.length by omega)]
    rw [e1, e2] at h1
    exact (List.Nodup.getElem_inj_iff hnd).mp h1
  · intro p _; rfl
  · intro k hk
    simp only
    rw [if_neg (by omega)]
  · intro i hi
    exact hptr i hi

end Verif
