import Verif.Lemmas.Order

namespace Verif
open Spec

theorem endOK_of_block : ∀ {n : Nat} {s e : List Nat}, Block n s e → EndOK n (s, e)
  | 0, [], [], _ => ⟨rfl, .nil⟩
  | n + 1, s :: ss, e :: es, h => by
    have ih := endOK_of_block h.2
    exact ⟨by simp [ih.len], .cons h.1 ih.le⟩
  | 0, [], _ :: _, h => by simp [Block] at h
  | 0, _ :: _, _, h => by simp [Block] at h
  | _ + 1, [], _, h => by simp [Block] at h
  | _ + 1, _ :: _, [], h => by simp [Block] at h

theorem inEnds_eq : ∀ {n : Nat} {s e x : List Nat}, Block n s e → inEnds s e x = inBox s (cnt s e) x
  | 0, [], [], [], _ => rfl
  | 0, [], [], _ :: _, _ => rfl
  | n + 1, s :: ss, e :: es, [], h => rfl
  | n + 1, s :: ss, e :: es, x :: xs, h => by
    have ih := inEnds_eq (x := xs) h.2
    have hc : cnt (s :: ss) (e :: es) = (e - s + 1) :: cnt ss es := rfl
    rw [hc]
    simp only [inEnds, inBox, ih]
    have h1 := h.1
    congr 1
    congr 1
    apply decide_eq_decide.mpr
    omega
  | 0, [], _ :: _, _, h => by simp [Block] at h
  | 0, _ :: _, _, _, h => by simp [Block] at h
  | _ + 1, [], _, _, h => by simp [Block] at h
  | _ + 1, _ :: _, [], _, h => by simp [Block] at h

/-! ### Span trees -/

theorem tree_head : ∀ {n : Nat} {t : SpanTree}, t.OK (n + 1) → ∀ r ∈ t.blocks, ∃ a r1, r.1 = a :: r1 ∧ ∀ l ∈ t.first, l ≤ a
  | n, .leaf, h => by simp [SpanTree.OK] at h
  | n, .stop, _ => by simp [SpanTree.blocks]
  | n, .span lo hi down next, h => by
    obtain ⟨h1, _, _, h4, h5⟩ := h
    intro r hr
    simp only [SpanTree.blocks, List.mem_append, List.mem_map] at hr
    rcases hr with ⟨b, _, rfl⟩ | hr
    · exact ⟨lo, b.1, rfl, by simp [SpanTree.first]⟩
    · obtain ⟨a, r1, e, hl⟩ := tree_head h5 r hr
      refine ⟨a, r1, e, ?_⟩
      intro l hl'
      have hlo : l = lo := by simpa [SpanTree.first] using hl'.symm
      cases next with
      | leaf => simp [SpanTree.OK] at h5
      | stop => simp [SpanTree.blocks] at hr
      | span lo2 hi2 d2 n2 =>
        have := hl lo2 (by simp [SpanTree.first])
        have := h4 lo2 (by simp [SpanTree.first])
        omega

theorem tree_blocks : ∀ {n : Nat} {t : SpanTree}, t.OK n →
    (∀ r ∈ t.blocks, Block n r.1 r.2) ∧ t.blocks.Pairwise (fun a b => SteppedE a.1 a.2 b.1 b.2) ∧
    (∀ x, t.Has x ↔ ∃ r ∈ t.blocks, inEnds r.1 r.2 x = true) ∧ (t ≠ .stop → t.blocks ≠ [])
  | n, .leaf, h => by
    have : n = 0 := by simpa [SpanTree.OK] using h
    subst this
    refine ⟨by simp [SpanTree.blocks, Block], by simp [SpanTree.blocks], ?_, by simp [SpanTree.blocks]⟩
    intro x
    cases x <;> simp [SpanTree.blocks, SpanTree.Has, inEnds]
  | n, .stop, _ => by simp [SpanTree.blocks, SpanTree.Has]
  | 0, .span _ _ _ _, h => by simp [SpanTree.OK] at h
  | n + 1, .span lo hi down next, h => by
    obtain ⟨h1, h2, h3, h4, h5⟩ := h
    obtain ⟨d1, d2, d3, d4⟩ := tree_blocks h3
    obtain ⟨n1, n2, n3, _⟩ := tree_blocks h5
    refine ⟨?_, ?_, ?_, ?_⟩
    · intro r hr
      simp only [SpanTree.blocks, List.mem_append, List.mem_map] at hr
      rcases hr with ⟨b, hb, rfl⟩ | hr
      · exact ⟨h1, d1 b hb⟩
      · exact n1 r hr
    · simp only [SpanTree.blocks]
      rw [List.pairwise_append]
      refine ⟨?_, n2, ?_⟩
      · rw [List.pairwise_map]
        exact d2.imp (fun h => .inr ⟨rfl, rfl, h⟩)
      · intro a ha b hb
        obtain ⟨a', ha', rfl⟩ := List.mem_map.mp ha
        obtain ⟨x, b1, e, hl⟩ := tree_head h5 b hb
        have hbk := n1 b hb
        obtain ⟨bs, be⟩ := b
        simp only at e
        subst e
        cases be with
        | nil => simp [Block] at hbk
        | cons y ys =>
          left
          cases next with
          | leaf => simp [SpanTree.OK] at h5
          | stop => simp [SpanTree.blocks] at hb
          | span lo2 hi2 d2 n2 =>
            have := hl lo2 (by simp [SpanTree.first])
            have := h4 lo2 (by simp [SpanTree.first])
            omega
    · intro x
      simp only [SpanTree.Has, SpanTree.blocks, List.mem_append, List.mem_map]
      rw [n3]
      constructor
      · rintro (⟨y, ys, rfl, hy1, hy2, hd⟩ | ⟨r, hr, hx⟩)
        · obtain ⟨r, hr, hx⟩ := (d3 ys).mp hd
          exact ⟨_, .inl ⟨r, hr, rfl⟩, by simp [inEnds, hy1, hy2, hx]⟩
        · exact ⟨r, .inr hr, hx⟩
      · rintro ⟨r, ⟨b, hb, rfl⟩ | hr, hx⟩
        · left
          cases x with
          | nil => simp [inEnds] at hx
          | cons y ys =>
            simp only [inEnds, Bool.and_eq_true, decide_eq_true_eq] at hx
            exact ⟨y, ys, rfl, hx.1.1, hx.1.2, (d3 ys).mpr ⟨b, hb, hx.2⟩⟩
        · exact .inr ⟨r, hr, hx⟩
    · intro _
      simp only [SpanTree.blocks, ne_eq, List.append_eq_nil_iff, List.map_eq_nil_iff, not_and]
      intro he
      exact absurd he (d4 h2)

/-! ### Regular hyperslabs -/

theorem grid_blocks : ∀ {s t c b : List Nat}, GridOK s t c b →
    (∀ r ∈ gridBlocks s t c b, Block s.length r.1 r.2) ∧
    (gridBlocks s t c b).Pairwise (fun a b => SteppedE a.1 a.2 b.1 b.2) ∧
    (∀ x, InGrid s t c b x ↔ ∃ r ∈ gridBlocks s t c b, inEnds r.1 r.2 x = true) ∧ gridBlocks s t c b ≠ []
  | [], [], [], [], _ => by
    refine ⟨by simp [gridBlocks, Block], by simp [gridBlocks], ?_, by simp [gridBlocks]⟩
    intro x
    cases x <;> simp [gridBlocks, InGrid, inEnds]
  | s :: ss, t :: ts, c :: cs, b :: bs, h => by
    obtain ⟨hc, hb, ht, h4⟩ := h
    obtain ⟨i1, i2, i3, i4⟩ := grid_blocks h4
    refine ⟨?_, ?_, ?_, ?_⟩
    · intro r hr
      simp only [gridBlocks, List.mem_flatMap, List.mem_range, List.mem_map] at hr
      obtain ⟨i, _, q, hq, rfl⟩ := hr
      exact ⟨by omega, i1 q hq⟩
    · simp only [gridBlocks]
      rw [List.pairwise_flatMap]
      constructor
      · intro i _
        rw [List.pairwise_map]
        exact i2.imp (fun h => .inr ⟨rfl, rfl, h⟩)
      · refine List.pairwise_lt_range.imp_of_mem ?_
        intro i j hi hj hij a ha b' hb'
        obtain ⟨a', _, rfl⟩ := List.mem_map.mp ha
        obtain ⟨b', _, rfl⟩ := List.mem_map.mp hb'
        left
        have hj' := List.mem_range.mp hj
        have := ht (by omega)
        have h5 : t * (i + 1) ≤ t * j := Nat.mul_le_mul_left _ (by omega)
        rw [Nat.mul_add] at h5
        omega
    · intro x
      cases x with
      | nil =>
        simp only [InGrid, false_iff, not_exists, not_and]
        intro r hr
        simp only [gridBlocks, List.mem_flatMap, List.mem_map] at hr
        obtain ⟨i, _, q, _, rfl⟩ := hr
        simp [inEnds]
      | cons y ys =>
        simp only [InGrid]
        rw [i3]
        simp only [gridBlocks, List.mem_flatMap, List.mem_range, List.mem_map]
        constructor
        · rintro ⟨⟨i, hi, h1, h2⟩, r, hr, hx⟩
          refine ⟨_, ⟨i, hi, r, hr, rfl⟩, ?_⟩
          simp only [inEnds, Bool.and_eq_true, decide_eq_true_eq]
          exact ⟨⟨h1, by omega⟩, hx⟩
        · rintro ⟨_, ⟨i, hi, r, hr, rfl⟩, hx⟩
          simp only [inEnds, Bool.and_eq_true, decide_eq_true_eq] at hx
          exact ⟨⟨i, hi, hx.1.1, by omega⟩, r, hr, hx.2⟩
    · simp only [gridBlocks]
      obtain ⟨k, rfl⟩ : ∃ k, c = k + 1 := ⟨c - 1, by omega⟩
      rw [List.range_succ_eq_map]
      simp [i4]
  | [], [], [], _ :: _, h => by simp [GridOK] at h
  | [], [], _ :: _, _, h => by simp [GridOK] at h
  | [], _ :: _, _, _, h => by simp [GridOK] at h
  | _ :: _, [], _, _, h => by simp [GridOK] at h
  | _ :: _, _ :: _, [], _, h => by simp [GridOK] at h
  | _ :: _, _ :: _, _ :: _, [], h => by simp [GridOK] at h

theorem grid_one : ∀ {s t c b : List Nat}, GridOK s t c b → (∀ k ∈ c, k = 1) → ∃ r, gridBlocks s t c b = [r]
  | [], [], [], [], _, _ => ⟨_, rfl⟩
  | s :: ss, t :: ts, c :: cs, b :: bs, h, h1 => by
    obtain ⟨r, hr⟩ := grid_one h.2.2.2 (fun k hk => h1 k (by simp [hk]))
    have : c = 1 := h1 c (by simp)
    subst this
    simp only [gridBlocks, hr]
    exact ⟨_, rfl⟩
  | [], [], [], _ :: _, h, _ => by simp [GridOK] at h
  | [], [], _ :: _, _, h, _ => by simp [GridOK] at h
  | [], _ :: _, _, _, h, _ => by simp [GridOK] at h
  | _ :: _, [], _, _, h, _ => by simp [GridOK] at h
  | _ :: _, _ :: _, [], _, h, _ => by simp [GridOK] at h
  | _ :: _, _ :: _, _ :: _, [], h, _ => by simp [GridOK] at h

theorem grid_sorted : ∀ {s t c b : List Nat}, GridOK s t c b → NoInterleave c b →
    (cellsL ((gridBlocks s t c b).map toCount)).Pairwise RowLt
  | [], [], [], [], _, _ => by simp [gridBlocks, cellsL, cellsR, toCount, cells, boxIdx]
  | s :: ss, t :: ts, c :: cs, b :: bs, h, hi => by
    obtain ⟨hc, hb, ht, h4⟩ := h
    have ih := grid_sorted h4 hi.2
    have hbl := (grid_blocks h4).1
    -- cells of one block
    have hcell : ∀ (i : Nat) (r : CRow), cellsR (toCount ((s + t * i) :: r.1, (s + t * i + (b - 1)) :: r.2)) =
        (List.range b).flatMap (fun x => (cellsR (toCount r)).map (fun y => (s + t * i + x) :: y)) := by
      intro i r
      have : toCount ((s + t * i) :: r.1, (s + t * i + (b - 1)) :: r.2) = ((s + t * i) :: r.1, b :: cnt r.1 r.2) := by
        simp only [toCount_eq, cnt, List.zipWith_cons_cons]
        congr 2
        omega
      rw [this]
      exact cells_cons _ _ _ _
    simp only [gridBlocks, List.map_flatMap, List.map_map, cellsL]
    rw [List.flatMap_assoc, List.pairwise_flatMap]
    constructor
    · intro i _
      rw [List.flatMap_map]
      simp only [Function.comp_apply, hcell]
      rcases hi.1 with rfl | h1
      · simp only [List.range_one, List.flatMap_singleton, Nat.add_zero]
        have e : (gridBlocks ss ts cs bs).flatMap (fun r => (cellsR (toCount r)).map (fun y => (s + t * i) :: y)) =
            (cellsL ((gridBlocks ss ts cs bs).map toCount)).map (fun y => (s + t * i) :: y) := by
          simp only [cellsL, List.map_flatMap, List.flatMap_map]
        rw [e, List.pairwise_map]
        exact ih.imp (fun h => .inr ⟨rfl, h⟩)
      · obtain ⟨r, hr⟩ := grid_one h4 h1
        rw [hr] at ih ⊢
        simp only [List.map_cons, List.map_nil, cellsL, List.flatMap_cons, List.flatMap_nil, List.append_nil] at ih ⊢
        rw [List.pairwise_flatMap]
        constructor
        · intro x _
          rw [List.pairwise_map]
          exact ih.imp (fun h => .inr ⟨rfl, h⟩)
        · refine List.pairwise_lt_range.imp ?_
          intro x y hxy u hu v hv
          obtain ⟨u, _, rfl⟩ := List.mem_map.mp hu
          obtain ⟨v, _, rfl⟩ := List.mem_map.mp hv
          left; omega
    · refine List.pairwise_lt_range.imp_of_mem ?_
      intro i j hi' hj hij u hu v hv
      have hj' := List.mem_range.mp hj
      have htb := ht (by omega)
      have h5 : t * (i + 1) ≤ t * j := Nat.mul_le_mul_left _ (by omega)
      rw [Nat.mul_add] at h5
      rw [List.flatMap_map] at hu hv
      simp only [Function.comp_apply, hcell, List.mem_flatMap, List.mem_map, List.mem_range] at hu hv
      obtain ⟨_, _, x, hx, _, _, rfl⟩ := hu
      obtain ⟨_, _, y, hy, _, _, rfl⟩ := hv
      left
      omega
  | [], [], [], _ :: _, h, _ => by simp [GridOK] at h
  | [], [], _ :: _, _, h, _ => by simp [GridOK] at h
  | [], _ :: _, _, _, h, _ => by simp [GridOK] at h
  | _ :: _, [], _, _, h, _ => by simp [GridOK] at h
  | _ :: _, _ :: _, [], _, h, _ => by simp [GridOK] at h
  | _ :: _, _ :: _, _ :: _, [], h, _ => by simp [GridOK] at h

/-- The shortcut for unit strides and blocks. -/
theorem grid_unit : ∀ {s t c b : List Nat}, GridOK s t c b → allOnes t = true → allOnes b = true →
    ∀ x, InGrid s t c b x ↔ inBox s c x = true
  | [], [], [], [], _, _, _ => by intro x; cases x <;> simp [InGrid, inBox]
  | s :: ss, t :: ts, c :: cs, b :: bs, h, h1, h2 => by
    simp only [allOnes, List.all_cons, Bool.and_eq_true, decide_eq_true_eq] at h1 h2
    have ih := grid_unit h.2.2.2 h1.2 h2.2
    obtain ⟨rfl, _⟩ := h1
    obtain ⟨rfl, _⟩ := h2
    intro x
    cases x with
    | nil => simp [InGrid, inBox]
    | cons y ys =>
      simp only [InGrid, inBox, Bool.and_eq_true, decide_eq_true_eq]
      rw [ih]
      constructor
      · rintro ⟨⟨i, hi, h3, h4⟩, h5⟩
        exact ⟨⟨by omega, by omega⟩, h5⟩
      · rintro ⟨⟨h3, h4⟩, h5⟩
        exact ⟨⟨y - s, by omega, by omega, by omega⟩, h5⟩
  | [], [], [], _ :: _, h, _, _ => by simp [GridOK] at h
  | [], [], _ :: _, _, h, _, _ => by simp [GridOK] at h
  | [], _ :: _, _, _, h, _, _ => by simp [GridOK] at h
  | _ :: _, [], _, _, h, _, _ => by simp [GridOK] at h
  | _ :: _, _ :: _, [], _, h, _, _ => by simp [GridOK] at h
  | _ :: _, _ :: _, _ :: _, [], h, _, _ => by simp [GridOK] at h

/-- The shortcut for a single block. -/
theorem grid_single : ∀ {s t c b : List Nat}, GridOK s t c b → allOnes c = true →
    (∀ x, InGrid s t c b x ↔ inBox s b x = true) ∧ (allOnes b = true → c = b)
  | [], [], [], [], _, _ => by
    refine ⟨?_, fun _ => rfl⟩
    intro x; cases x <;> simp [InGrid, inBox]
  | s :: ss, t :: ts, c :: cs, b :: bs, h, h1 => by
    simp only [allOnes, List.all_cons, Bool.and_eq_true, decide_eq_true_eq] at h1
    obtain ⟨ih, ih2⟩ := grid_single h.2.2.2 h1.2
    obtain ⟨rfl, _⟩ := h1
    constructor
    · intro x
      cases x with
      | nil => simp [InGrid, inBox]
      | cons y ys =>
        simp only [InGrid, inBox, Bool.and_eq_true, decide_eq_true_eq]
        rw [ih]
        constructor
        · rintro ⟨⟨i, hi, h3, h4⟩, h5⟩
          have : i = 0 := by omega
          subst this
          exact ⟨⟨by omega, by omega⟩, h5⟩
        · rintro ⟨⟨h3, h4⟩, h5⟩
          exact ⟨⟨0, by omega, by omega, by omega⟩, h5⟩
    · intro h2
      simp only [allOnes, List.all_cons, Bool.and_eq_true, decide_eq_true_eq] at h2
      rw [ih2 h2.2, h2.1]
  | [], [], [], _ :: _, h, _ => by simp [GridOK] at h
  | [], [], _ :: _, _, h, _ => by simp [GridOK] at h
  | [], _ :: _, _, _, h, _ => by simp [GridOK] at h
  | _ :: _, [], _, _, h, _ => by simp [GridOK] at h
  | _ :: _, _ :: _, [], _, h, _ => by simp [GridOK] at h
  | _ :: _, _ :: _, _ :: _, [], h, _ => by simp [GridOK] at h

theorem grid_lengths : ∀ {s t c b : List Nat}, GridOK s t c b → c.length = s.length ∧ b.length = s.length ∧
    (∀ k ∈ c, 1 ≤ k) ∧ ∀ k ∈ b, 1 ≤ k
  | [], [], [], [], _ => by simp
  | s :: ss, t :: ts, c :: cs, b :: bs, h => by
    obtain ⟨i1, i2, i3, i4⟩ := grid_lengths h.2.2.2
    refine ⟨by simp [i1], by simp [i2], ?_, ?_⟩
    · intro k hk
      rcases List.mem_cons.mp hk with rfl | hk
      · exact h.1
      · exact i3 k hk
    · intro k hk
      rcases List.mem_cons.mp hk with rfl | hk
      · exact h.2.1
      · exact i4 k hk
  | [], [], [], _ :: _, h => by simp [GridOK] at h
  | [], [], _ :: _, _, h => by simp [GridOK] at h
  | [], _ :: _, _, _, h => by simp [GridOK] at h
  | _ :: _, [], _, _, h => by simp [GridOK] at h
  | _ :: _, _ :: _, [], _, h => by simp [GridOK] at h
  | _ :: _, _ :: _, _ :: _, [], h => by simp [GridOK] at h

end Verif
