import Verif.Lemmas.Alias

/-
What later groups write through slots that point to rows of an earlier group.
-/

namespace Verif
open Spec

/-- State after a group: the first `k` slots still have the pointers of `a0`; every row is as in `a0` or starts after the
cell `x`; the slots from `k` on start after `x`; so do the rows in `D`. -/
structure Kept (x : List Nat) (k : Nat) (a0 : Arr) (D : Nat → Prop) (a : Arr) (N : Nat) : Prop where
  le : k ≤ N
  ptr : ∀ i, i < k → a.ptr i = a0.ptr i
  mem : ∀ q, a.mem q = a0.mem q ∨ RowLt x (a.mem q).1
  late : ∀ i, k ≤ i → i < N → RowLt x (a.get i).1
  dead : ∀ q, D q → RowLt x (a.mem q).1

theorem Kept.weaken {x : List Nat} {k : Nat} {a0 : Arr} {D : Nat → Prop} {a : Arr} {N N' : Nat} (h : Kept x k a0 D a N)
    (h1 : k ≤ N') (h2 : N' ≤ N) : Kept x k a0 D a N' :=
  ⟨h1, h.ptr, h.mem, fun i hi hl => h.late i hi (by omega), h.dead⟩

theorem Kept.write {x : List Nat} {k : Nat} {a0 : Arr} {D : Nat → Prop} {a : Arr} {N : Nat} (h : Kept x k a0 D a N)
    (i : Nat) {r : CRow} (hr : RowLt x r.1) : Kept x k a0 D (a.write i r) N := by
  refine ⟨h.le, h.ptr, ?_, ?_, ?_⟩
  · intro q
    simp only [Arr.write]
    split
    · exact .inr hr
    · exact h.mem q
  · intro l h1 h2
    simp only [Arr.get, Arr.write]
    split
    · exact hr
    · exact h.late l h1 h2
  · intro q hq
    simp only [Arr.write]
    split
    · exact hr
    · exact h.dead q hq

theorem Kept.next {x : List Nat} {k : Nat} {a0 : Arr} {D : Nat → Prop} {a : Arr} {N : Nat} (h : Kept x k a0 D a N)
    {r : CRow} (hr : RowLt x r.1) : Kept x k a0 D (a.write N r) (N + 1) := by
  have h' := h.write N hr
  refine ⟨by have := h.le; omega, h'.ptr, h'.mem, ?_, h'.dead⟩
  intro i h1 h2
  by_cases hi : i = N
  · subst hi
    simp only [Arr.get, Arr.write, if_true]
    exact hr
  · exact h'.late i h1 (by omega)

theorem Kept.copy {x : List Nat} {k : Nat} {a0 : Arr} {D : Nat → Prop} {a : Arr} {N : Nat} (h : Kept x k a0 D a N)
    {j i : Nat} (hj : k ≤ j) (hi : k ≤ i) (hi' : i < N) : Kept x k a0 D (a.copy j i) N := by
  refine ⟨h.le, ?_, h.mem, ?_, h.dead⟩
  · intro l hl
    simp only [Arr.copy]
    rw [if_neg (by omega)]
    exact h.ptr l hl
  · intro l h1 h2
    simp only [Arr.get, Arr.copy]
    split
    · exact h.late i hi hi'
    · exact h.late l h1 h2

theorem Kept.fill {x : List Nat} {k : Nat} {a0 : Arr} {D : Nat → Prop} : ∀ (rows : List CRow) {a : Arr} {N : Nat},
    Kept x k a0 D a N → (∀ r ∈ rows, RowLt x r.1) →
    Kept x k a0 D (fill a N rows).1 (N + rows.length) ∧ (Verif.fill a N rows).1.ptr = a.ptr
  | [], _, _, h, _ => ⟨h, rfl⟩
  | r :: rows, a, N, h, hr => by
    obtain ⟨h1, h2⟩ := Kept.fill rows (h.next (hr r (by simp))) (fun y hy => hr y (by simp [hy]))
    unfold Verif.fill
    refine ⟨?_, by rw [h2]; rfl⟩
    have e : N + (r :: rows).length = N + 1 + rows.length := by simp only [List.length_cons]; omega
    rw [e]
    exact h1

theorem Kept.sort {x : List Nat} {k : Nat} {a0 : Arr} {D : Nat → Prop} {a : Arr} {off len : Nat}
    {srt : List (List Nat) → List Nat} (hs : IsSort srt) (h : Kept x k a0 D a (off + len)) (ho : k ≤ off) :
    ∃ a', sortblocks srt off len a = .ok a' ∧ Kept x k a0 D a' (off + len) := by
  have hp := (hs ((a.view off len).map Prod.fst)).1
  rw [List.length_map, view_length] at hp
  obtain ⟨idx, hidx⟩ : ∃ idx, idx = srt ((a.view off len).map Prod.fst) := ⟨_, rfl⟩
  rw [← hidx] at hp
  obtain ⟨f, idx', e, hf⟩ := reorder_ok (len := len) (fun i => a.ptr (off + i)) idx hp
  have hlen : idx.length = len := by simpa using hp.length_eq
  have hlt : ∀ i, i < len → idx.getD i i < len := by
    intro i hi
    have : idx.getD i i = idx[i] := by
      simp [List.getD_eq_getElem?_getD, List.getElem?_eq_getElem (show i < idx.length by omega)]
    rw [this]
    exact List.mem_range.mp (hp.mem_iff.mp (List.getElem_mem _))
  refine ⟨{ a with ptr := fun k => if off ≤ k ∧ k < off + len then f (k - off) else a.ptr k }, ?_, ⟨h.le, ?_, h.mem, ?_, h.dead⟩⟩
  · unfold sortblocks
    simp only [← hidx]
    rw [e]
    rfl
  · intro i hi
    simp only
    rw [if_neg (by omega)]
    exact h.ptr i hi
  · intro i h1 h2
    simp only [Arr.get]
    split
    · next hi =>
      have h3 : i - off < len := by omega
      rw [hf _ h3]
      exact h.late _ (by omega) (by have := hlt _ h3; omega)
    · exact h.late i h1 h2

theorem Kept.loop {x : List Nat} {k : Nat} {a0 : Arr} {D : Nat → Prop} {u : Bool} {d off len : Nat} (ho : k ≤ off) :
    ∀ (r : Nat) {a : Arr} {j i : Nat}, Kept x k a0 D a (off + len) → j < i → i + r ≤ len →
    Kept x k a0 D ((List.range' i r).foldl (mergeStep u d off) (a, j)).1 (off + len)
  | 0, _, _, _, h, _, _ => h
  | r + 1, a, j, i, h, hji, hr => by
    rw [List.range'_succ, List.foldl_cons]
    rcases mergeStep_cases u d off a j i with ⟨e, _⟩ | ⟨e, _⟩ <;> rw [e]
    · exact Kept.loop ho r (h.write _ (h.late (off + j) (by omega) (by omega))) (by omega) (by omega)
    · exact Kept.loop ho r (h.copy (by omega) (by omega) (by omega)) (by omega) (by omega)

theorem Kept.mergeBlocks {x : List Nat} {k : Nat} {a0 : Arr} {D : Nat → Prop} {u : Bool} {off len : Nat} (ho : k ≤ off) :
    ∀ (nd : Nat) {a : Arr} {l : Nat}, Kept x k a0 D a (off + len) → 0 < l → l ≤ len →
    Kept x k a0 D (mergeBlocks u nd off a l).1 (off + len) ∧ (Verif.mergeBlocks u nd off a l).2 ≤ len
  | 0, _, _, h, _, hl => ⟨h, hl⟩
  | nd + 1, a, l, h, hp, hl => by
    obtain ⟨n, rfl⟩ : ∃ n, l = n + 1 := ⟨l - 1, by omega⟩
    have h1 := Kept.loop (u := u) (d := nd) (len := len) ho n (j := 0) (i := 1) h (by omega) (by omega)
    have h2 := mergeLoop_le u nd off n a 0 1
    unfold Verif.mergeBlocks
    rw [mergeDim_loop]
    exact Kept.mergeBlocks ho nd h1 (by simp) (by simp only; omega)

/-- All cells of the group come after `x`. -/
def After (x : List Nat) (g : List CRow) : Prop := ∀ w ∈ cellsL (g.map toCount), RowLt x w

theorem after_rows {x : List Nat} {n : Nat} (hn : 0 < n) {g : List CRow} (ho : ∀ r ∈ g, EndOK n r) (h : After x g) :
    ∀ y ∈ g.flatMap rowsOf, RowLt x y.1 := by
  intro y hy
  apply h
  rw [← rows_cells hn ho]
  refine List.mem_flatMap.mpr ⟨y, hy, ?_⟩
  obtain ⟨r, hr, hy'⟩ := List.mem_flatMap.mp hy
  have hl := rowsOf_ok hn (ho r hr) y hy'
  have e : y.1.length = y.2.length := by rw [hl.len, hl.len2]
  exact (mem_cells e).mpr (inBox_start e hl.pos)

theorem after_counts {x : List Nat} {n : Nat} {g : List CRow} (ho : ∀ r ∈ g, EndOK n r) (h : After x g) :
    ∀ y ∈ g.map toCount, RowLt x y.1 := by
  intro y hy
  apply h
  refine List.mem_flatMap.mpr ⟨y, hy, ?_⟩
  obtain ⟨r, hr, rfl⟩ := List.mem_map.mp hy
  have hl := (ho r hr).box
  have e : (toCount r).1.length = (toCount r).2.length := by rw [hl.len, hl.len2]
  exact (mem_cells e).mpr (inBox_start e hl.pos)

theorem rows_ne {g : List CRow} (hg : g ≠ []) : 0 < (g.flatMap rowsOf).length := by
  apply List.length_pos_of_ne_nil
  intro he
  rw [List.flatMap_eq_nil_iff] at he
  cases g with
  | nil => exact hg rfl
  | cons x r => exact rowsOf_ne x (he x (by simp))

theorem Kept.group {x : List Nat} {k : Nat} {a0 : Arr} {D : Nat → Prop} {srt : List (List Nat) → List Nat} (hs : IsSort srt)
    {n : Nat} (hn : 0 < n) {st : Sel} {g : List CRow} (h : Kept x k a0 D st.arr st.nsel) (hg : g ≠ [])
    (ho : ∀ r ∈ g, EndOK n r) (ha : After x g) :
    ∃ st', fillGroup srt n st g = .ok st' ∧ Kept x k a0 D st'.arr st'.nsel := by
  unfold fillGroup
  by_cases h1 : g.length = 1
  · rw [if_pos h1]
    refine ⟨_, rfl, ?_⟩
    have := (h.fill (g.map toCount) (after_counts ho ha)).1
    rw [List.length_map, h1] at this
    exact this
  · rw [if_neg h1, breakRows_ok ho]
    simp only [Res.ok_bind]
    obtain ⟨h2, _⟩ := h.fill (g.flatMap rowsOf) (after_rows hn ho ha)
    obtain ⟨a1, e1, h3⟩ := h2.sort hs h.le
    rw [e1]
    simp only [Res.ok_bind]
    obtain ⟨h4, h5⟩ := Kept.mergeBlocks (u := false) h.le n h3 (rows_ne hg) (Nat.le_refl _)
    exact ⟨_, rfl, h4.weaken (by have := h.le; simp only; omega) (by simp only; omega)⟩

/-- A group that is broken into rows makes the aliases among its slots visible. -/
theorem Kept.hit {x : List Nat} {k : Nat} {a0 : Arr} {srt : List (List Nat) → List Nat} (hs : IsSort srt)
    {n : Nat} (hn : 0 < n) {st : Sel} {g : List CRow} (h : Kept x k a0 (fun _ => False) st.arr st.nsel) (hg : g ≠ [])
    (ho : ∀ r ∈ g, EndOK n r) (ha : After x g) (h1 : g.length ≠ 1) {p : Nat} (hp : k ≤ p)
    (hp' : p < st.nsel + (g.flatMap rowsOf).length) :
    ∃ st', fillGroup srt n st g = .ok st' ∧ Kept x k a0 (fun q => q = st.arr.ptr p) st'.arr st'.nsel := by
  unfold fillGroup
  rw [if_neg h1, breakRows_ok ho]
  simp only [Res.ok_bind]
  obtain ⟨h2, e2⟩ := h.fill (g.flatMap rowsOf) (after_rows hn ho ha)
  have h2 : Kept x k a0 (fun q => q = st.arr.ptr p) (Verif.fill st.arr st.nsel (g.flatMap rowsOf)).1
      (st.nsel + (g.flatMap rowsOf).length) := by
    refine ⟨h2.le, h2.ptr, h2.mem, h2.late, ?_⟩
    intro q hq
    subst hq
    have := h2.late p hp hp'
    simp only [Arr.get, e2] at this
    exact this
  obtain ⟨a1, e1, h3⟩ := h2.sort hs h.le
  rw [e1]
  simp only [Res.ok_bind]
  obtain ⟨h4, h5⟩ := Kept.mergeBlocks (u := false) h.le n h3 (rows_ne hg) (Nat.le_refl _)
  exact ⟨_, rfl, h4.weaken (by have := h.le; simp only; omega) (by simp only; omega)⟩

theorem Kept.groups {x : List Nat} {k : Nat} {a0 : Arr} {D : Nat → Prop} {srt : List (List Nat) → List Nat} (hs : IsSort srt)
    {n : Nat} (hn : 0 < n) : ∀ {gs : List (List CRow)} {st : Sel}, Kept x k a0 D st.arr st.nsel →
    (∀ g ∈ gs, g ≠ [] ∧ ∀ r ∈ g, EndOK n r) → (∀ g ∈ gs, After x g) →
    ∃ st', fillGroups srt n st gs = .ok st' ∧ Kept x k a0 D st'.arr st'.nsel
  | [], st, h, _, _ => ⟨st, rfl, h⟩
  | g :: gs, st, h, hg, ha => by
    obtain ⟨st1, e1, h1⟩ := h.group hs hn (hg g (by simp)).1 (hg g (by simp)).2 (ha g (by simp))
    obtain ⟨st2, e2, h2⟩ := Kept.groups (gs := gs) hs hn h1 (fun y hy => hg y (by simp [hy])) (fun y hy => ha y (by simp [hy]))
    refine ⟨st2, ?_, h2⟩
    unfold fillGroups
    rw [e1]
    exact e2

/-- The first group, with the pointers. -/
theorem firstGroup {srt : List (List Nat) → List Nat} (hs : IsSort srt) {n : Nat} {g : List CRow}
    (hg : g ≠ []) (ho : ∀ r ∈ g, EndOK n r) (h1 : g.length ≠ 1) (hlm : LM n (sortL srt (g.flatMap rowsOf)))
    (h2 : 2 ≤ (outL srt n g).length) :
    ∃ st, fillGroup srt n ⟨Arr.fresh [], 0⟩ g = .ok st ∧ st.nsel = (outL srt n g).length ∧
      st.arr.view 0 st.nsel = outL srt n g ∧
      ∃ p, st.nsel ≤ p ∧ p < (g.flatMap rowsOf).length ∧ st.arr.ptr (st.nsel - 1) = st.arr.ptr p := by
  have hpos := rows_ne hg
  obtain ⟨rows, hrows⟩ : ∃ rows, rows = g.flatMap rowsOf := ⟨_, rfl⟩
  have hc := fresh_clean []
  obtain ⟨f1, f2, f3⟩ := fill_ok rows (Arr.fresh []) 0 hc
  obtain ⟨a0, ha0⟩ : ∃ a0, a0 = (fill (Arr.fresh []) 0 rows).1 := ⟨_, rfl⟩
  rw [← ha0] at f1 f2
  have hd : Distinct a0 0 rows.length := by
    intro k l _ _ he
    rw [f1] at he
    simpa [Arr.fresh] using he
  obtain ⟨a1, e1, t1, _⟩ := sortblocks_ok hs 0 rows.length a0 hd
  have hsorted : a1.view 0 rows.length = sortL srt rows := by
    rw [t1.view, f2]
    unfold sortL
    apply List.map_congr_left
    intro i hi
    have hp := (hs (rows.map Prod.fst)).1
    rw [List.length_map] at hp
    have hi' := List.mem_range.mp (hp.mem_iff.mp hi)
    have : a0.get (0 + i) = (a0.view 0 rows.length).getD i ([], []) := by
      simp [Arr.view, hi']
    rw [this, f2]
  obtain ⟨t2, _⟩ := mergeBlocks_ok false 0 n a1 rows.length (by rw [hrows]; exact hpos) t1.inj
  have hout : outL srt n g = mergeAllL false n (sortL srt rows) := by
    unfold outL; rw [if_neg h1, ← hrows]
  rw [hsorted, ← hout] at t2
  have hlen : (mergeBlocks false n 0 a1 rows.length).2 = (outL srt n g).length := by rw [← t2.view, view_length]
  obtain ⟨p, p1, p2, p3⟩ := mergeBlocks_alias n a1 rows.length (by rw [hrows]; exact hpos) t1.inj
    (by rw [hsorted, hrows]; exact hlm) (by rw [hlen]; exact h2)
  refine ⟨⟨(mergeBlocks false n 0 a1 rows.length).1, 0 + (mergeBlocks false n 0 a1 rows.length).2⟩, ?_, ?_, ?_, p, ?_, ?_, ?_⟩
  · unfold fillGroup
    rw [if_neg h1, breakRows_ok ho]
    simp only [Res.ok_bind, ← hrows, ← ha0, e1]
    rfl
  · simp only [Nat.zero_add]
    exact hlen
  · simp only [Nat.zero_add]
    exact t2.view
  · simp only [Nat.zero_add]
    exact p1
  · rw [← hrows]; exact p2
  · simp only [Nat.zero_add]
    exact p3

theorem not_inBox_late {x s c : List Nat} (h : RowLt x s) : inBox s c x ≠ true := by
  intro e
  have h1 := inBox_first e
  exact RowLt.irrefl (h.trans_le h1)

/-- If the rows of the first group are merged and there is another group with as many rows, a cell of the first group is in
none of the resulting blocks. -/
theorem fillGroups_lost {srt : List (List Nat) → List Nat} (hs : IsSort srt) {n : Nat} (hn : 0 < n) {g1 g2 : List CRow}
    {gs : List (List CRow)} (hg : ∀ g ∈ g1 :: g2 :: gs, g ≠ [] ∧ ∀ r ∈ g, EndOK n r)
    (hap : (g1 :: g2 :: gs).Pairwise (fun g g' => ∀ a ∈ g, ∀ b ∈ g', RowLt a.2 b.1))
    (hd : (cellsL (g1.map toCount)).Nodup) (h1 : g1.length ≠ 1) (h2 : g2.length ≠ 1)
    (hlm : LM n (sortL srt (g1.flatMap rowsOf))) (hk : 2 ≤ (outL srt n g1).length)
    (hle : (g1.flatMap rowsOf).length ≤ (g2.flatMap rowsOf).length) :
    ∃ st, fillGroups srt n ⟨Arr.fresh [], 0⟩ (g1 :: g2 :: gs) = .ok st ∧ (FirstLeast g1 → st.arr.ptr 0 = 0) ∧
      ∃ x ∈ cellsL (g1.map toCount), ∀ r ∈ st.arr.view 0 st.nsel, inBox r.1 r.2 x ≠ true := by
  have ho1 := (hg g1 (by simp)).2
  have ho2 := (hg g2 (by simp)).2
  obtain ⟨st1, e1, n1, v1, p, p1, p2, p3⟩ := firstGroup hs (hg g1 (by simp)).1 ho1 h1 hlm hk
  obtain ⟨st1', e1', r1⟩ := fillGroup_ok hs (hg g1 (by simp)).1 ho1 (st := ⟨Arr.fresh [], 0⟩) (fresh_clean [])
  have : st1' = st1 := by
    rw [e1] at e1'
    cases e1'
    rfl
  subst this
  obtain ⟨k, hkk⟩ : ∃ k, k = st1'.nsel := ⟨_, rfl⟩
  have hk2 : 2 ≤ k := by omega
  -- the cell
  obtain ⟨x, hx⟩ : ∃ x, x = (st1'.arr.get (k - 1)).1 := ⟨_, rfl⟩
  have hget : ∀ i, i < k → st1'.arr.get i ∈ outL srt n g1 := by
    intro i hi
    rw [← v1]
    unfold Arr.view
    exact List.mem_map.mpr ⟨i, List.mem_range.mpr (by omega), by rw [Nat.zero_add]⟩
  have hbox := outL_box hs hn ho1
  have hxin : ∀ i, i < k → inBox (st1'.arr.get i).1 (st1'.arr.get i).2 (st1'.arr.get i).1 = true := by
    intro i hi
    have hb := hbox _ (hget i hi)
    exact inBox_start (by rw [hb.len, hb.len2]) hb.pos
  have hcells : ∀ i, i < k → ∀ y, inBox (st1'.arr.get i).1 (st1'.arr.get i).2 y = true → y ∈ cellsL (outL srt n g1) := by
    intro i hi y hy
    have hb := hbox _ (hget i hi)
    exact List.mem_flatMap.mpr ⟨_, hget i hi, (mem_cells (by rw [hb.len, hb.len2])).mpr hy⟩
  have hxc : x ∈ cellsL (outL srt n g1) := by
    rw [hx]
    exact hcells (k - 1) (by omega) _ (hxin (k - 1) (by omega))
  -- later groups are after it
  have hafter : ∀ g ∈ g2 :: gs, After x g := by
    intro g hg' w hw
    obtain ⟨a, ha, _, h4⟩ := outL_between hs hn ho1 hxc
    have hwo : w ∈ cellsL (outL srt n g) := (outL_perm hs hn (hg g (by simp [List.mem_cons.mp hg'])).2).mem_iff.mpr hw
    obtain ⟨b, hb, h5, _⟩ := outL_between hs hn (hg g (by simp [List.mem_cons.mp hg'])).2 hwo
    exact (h4.trans_lt ((List.pairwise_cons.mp hap).1 g hg' a ha b hb)).trans_le h5
  have hinit : Kept x k st1'.arr (fun _ => False) st1'.arr st1'.nsel :=
    ⟨by omega, fun _ _ => rfl, fun _ => .inl rfl, fun i h1 h2 => by omega, fun _ h => h.elim⟩
  obtain ⟨st2, e2, k2⟩ := hinit.hit hs hn (hg g2 (by simp)).1 ho2 (hafter g2 (by simp)) h2 (p := p) (by omega) (by omega)
  obtain ⟨st3, e3, k3⟩ := Kept.groups hs hn k2 (gs := gs) (fun g hg' => hg g (by simp [hg'])) (fun g hg' => hafter g (by simp [hg']))
  refine ⟨st3, ?_, ?_, x, (outL_perm hs hn ho1).mem_iff.mp hxc, ?_⟩
  · unfold fillGroups
    rw [e1]
    simp only [Res.ok_bind]
    unfold fillGroups
    rw [e2]
    exact e3
  · intro hf
    rw [k3.ptr 0 (by omega)]
    exact r1.first (.inr (.inr hf))
  · intro r hr
    unfold Arr.view at hr
    obtain ⟨i, hi, rfl⟩ := List.mem_map.mp hr
    rw [Nat.zero_add]
    have hi := List.mem_range.mp hi
    by_cases hik : k ≤ i
    · exact not_inBox_late (k3.late i hik hi)
    · by_cases hil : i = k - 1
      · apply not_inBox_late
        have := k3.dead (st1'.arr.ptr p) rfl
        unfold Arr.get
        rw [k3.ptr i (by omega), hil, hkk, p3]
        exact this
      · rcases k3.mem (st3.arr.ptr i) with hm | hm
        · -- unchanged: another block of the first group
          intro hin
          have hgi : st3.arr.get i = st1'.arr.get i := by
            unfold Arr.get
            rw [hm, k3.ptr i (by omega)]
          rw [hgi] at hin
          have hnd : (cellsL (outL srt n g1)).Nodup := (outL_perm hs hn ho1).nodup_iff.mpr hd
          have hsplit : ∃ l1 l2 l3, outL srt n g1 = l1 ++ st1'.arr.get i :: l2 ++ st1'.arr.get (k - 1) :: l3 := by
            rw [← v1, ← hkk]
            refine ⟨st1'.arr.view 0 i, st1'.arr.view (i + 1) (k - 1 - (i + 1)), [], ?_⟩
            apply List.ext_getElem
            · simp [view_length]
              omega
            · intro m hm1 hm2
              simp only [view_length] at hm1
              simp only [Arr.view, List.getElem_map, List.getElem_range, Nat.zero_add]
              rw [List.getElem_append]
              split
              · next hlt =>
                simp only [List.length_append, List.length_map, List.length_range, List.length_cons] at hlt
                rw [List.getElem_append]
                split
                · simp
                · next hge =>
                  simp only [List.length_map, List.length_range] at hge
                  rw [List.getElem_cons]
                  split
                  · congr 1
                    simp only [List.length_map, List.length_range] at *
                    omega
                  · simp only [List.getElem_map, List.getElem_range, List.length_map, List.length_range]
                    congr 1
                    simp only [List.length_map, List.length_range] at *
                    omega
              · next hge =>
                simp only [List.length_append, List.length_map, List.length_range, List.length_cons] at hge
                have : m = k - 1 := by omega
                subst this
                simp
          obtain ⟨l1, l2, l3, hl⟩ := hsplit
          rw [hl] at hnd
          unfold cellsL at hnd
          rw [List.flatMap_append, List.nodup_append] at hnd
          refine hnd.2.2 x ?_ x ?_ rfl
          · have hb := hbox _ (hget i (by omega))
            exact List.mem_flatMap.mpr ⟨st1'.arr.get i, by simp, (mem_cells (by rw [hb.len, hb.len2])).mpr hin⟩
          · have hb := hbox _ (hget (k - 1) (by omega))
            exact List.mem_flatMap.mpr ⟨st1'.arr.get (k - 1), by simp, (mem_cells (by rw [hb.len, hb.len2])).mpr (by rw [hx]; exact hxin (k - 1) (by omega))⟩
        · exact not_inBox_late hm

end Verif
