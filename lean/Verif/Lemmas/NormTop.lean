import Verif.Lemmas.Norm
import Mathlib.Data.List.Flatten

namespace Verif
open Spec

/-- Shape of a block given by start and count. -/
structure BoxOK (n : Nat) (r : CRow) : Prop where
  len : r.1.length = n
  len2 : r.2.length = n
  pos : ∀ c ∈ r.2, 1 ≤ c

theorem mergeCount_pos : ∀ {d : Nat} {c c' : List Nat}, (∀ k ∈ c, 1 ≤ k) → ∀ k ∈ mergeCount false d c c', 1 ≤ k
  | 0, [], _, _ => by simp [mergeCount]
  | 0, _ :: _, [], h => by simpa [mergeCount] using h
  | 0, c :: cs, c' :: _, h => by
    intro k hk
    simp only [mergeCount, Bool.false_eq_true, if_false, List.mem_cons] at hk
    rcases hk with rfl | hk
    · have := h c (by simp); omega
    · exact h k (by simp [hk])
  | _ + 1, [], _, _ => by simp [mergeCount]
  | _ + 1, _ :: _, [], h => by simpa [mergeCount] using h
  | d + 1, c :: cs, _ :: cs', h => by
    intro k hk
    simp only [mergeCount, List.mem_cons] at hk
    rcases hk with rfl | hk
    · exact h k (by simp)
    · exact mergeCount_pos (fun k hk => h k (by simp [hk])) k hk

theorem mergeL_box {n d : Nat} : ∀ (x : CRow) (r : List CRow), (∀ y ∈ x :: r, BoxOK n y) → ∀ y ∈ mergeL false d x r, BoxOK n y
  | x, [], h => by simpa [mergeL] using h
  | x, y :: r, h => by
    have hx := h x (by simp)
    unfold mergeL
    split
    · apply mergeL_box
      intro z hz
      rcases List.mem_cons.mp hz with rfl | hz
      · exact ⟨hx.len, by rw [mergeCount_length]; exact hx.len2, mergeCount_pos hx.pos⟩
      · exact h z (by simp [hz])
    · intro z hz
      rcases List.mem_cons.mp hz with rfl | hz
      · exact hx
      · exact mergeL_box y r (fun w hw => h w (by simp only [List.mem_cons] at hw ⊢; exact .inr hw)) z hz

theorem mergeAllL_box {n : Nat} : ∀ (nd : Nat) (l : List CRow), (∀ y ∈ l, BoxOK n y) → ∀ y ∈ mergeAllL false nd l, BoxOK n y
  | 0, _, h => h
  | nd + 1, l, h => by
    unfold mergeAllL
    apply mergeAllL_box nd
    cases l with
    | nil => simp [mergeDimL]
    | cons x r => exact mergeL_box x r h

theorem EndOK.box {n : Nat} {r : CRow} (h : EndOK n r) : BoxOK n (toCount r) :=
  ⟨h.len, by rw [toCount_eq]; simp only; rw [cnt_length h.le.length_eq, h.len], by rw [toCount_eq]; exact cnt_pos⟩

theorem outL_box {srt : List (List Nat) → List Nat} (hs : IsSort srt) {n : Nat} (hn : 0 < n) {g : List CRow}
    (h : ∀ r ∈ g, EndOK n r) : ∀ y ∈ outL srt n g, BoxOK n y := by
  unfold outL
  split
  · intro y hy
    obtain ⟨r, hr, rfl⟩ := List.mem_map.mp hy
    exact (h r hr).box
  · apply mergeAllL_box
    intro y hy
    have hy' := (sortL_perm hs _).mem_iff.mp hy
    obtain ⟨r, hr, hy'⟩ := List.mem_flatMap.mp hy'
    have := rowsOf_ok hn (h r hr) y hy'
    exact ⟨this.len, this.len2, this.pos⟩

theorem rows_cells {n : Nat} (hn : 0 < n) : ∀ {g : List CRow}, (∀ r ∈ g, EndOK n r) →
    cellsL (g.flatMap rowsOf) = cellsL (g.map toCount)
  | [], _ => rfl
  | r :: g, h => by
    rw [List.flatMap_cons, cellsL_append, rowsOf_cells hn (h r (by simp)), rows_cells hn (fun x hx => h x (by simp [hx])),
      List.map_cons, cellsL_cons]

theorem outL_perm {srt : List (List Nat) → List Nat} (hs : IsSort srt) {n : Nat} (hn : 0 < n) {g : List CRow}
    (h : ∀ r ∈ g, EndOK n r) : (cellsL (outL srt n g)).Perm (cellsL (g.map toCount)) := by
  unfold outL
  split
  · exact List.Perm.refl _
  · rw [← rows_cells hn h]
    exact (mergeAllL_perm _ _).trans (cellsL_perm (sortL_perm hs _))

theorem outL_sorted {srt : List (List Nat) → List Nat} (hs : IsSort srt) {n : Nat} (hn : 0 < n) {g : List CRow}
    (h : ∀ r ∈ g, EndOK n r) (hd : (cellsL (g.map toCount)).Nodup) : (cellsL (outL srt n g)).Pairwise RowLt := by
  unfold outL
  split
  · rename_i h1
    obtain ⟨r, rfl⟩ := List.length_eq_one_iff.mp h1
    have hb := (h r (by simp)).box
    simp only [List.map_cons, List.map_nil, cellsL, List.flatMap_cons, List.flatMap_nil, List.append_nil]
    exact cells_sorted (by rw [hb.len, hb.len2])
  · have hl : ∀ q ∈ sortL srt (g.flatMap rowsOf), LineOK n q := by
      intro q hq
      have := (sortL_perm hs _).mem_iff.mp hq
      obtain ⟨r, hr, hq'⟩ := List.mem_flatMap.mp this
      exact rowsOf_ok hn (h r hr) q hq'
    rw [mergeAllL_eq n _ (fun q hq => (hl q hq).ones)]
    apply lines_sorted hn hl (sortL_sorted hs _)
    rw [(cellsL_perm (sortL_perm hs _)).nodup_iff, rows_cells hn h]
    exact hd

/-- Cells of the blocks of a group lie between the starts and the ends of its blocks. -/
theorem outL_between {srt : List (List Nat) → List Nat} (hs : IsSort srt) {n : Nat} (hn : 0 < n) {g : List CRow}
    (h : ∀ r ∈ g, EndOK n r) {u : List Nat} (hu : u ∈ cellsL (outL srt n g)) :
    ∃ a ∈ g, RowLe a.1 u ∧ RowLe u a.2 := by
  have hu' := (outL_perm hs hn h).mem_iff.mp hu
  obtain ⟨r, hr, hu'⟩ := List.mem_flatMap.mp hu'
  obtain ⟨a, ha, rfl⟩ := List.mem_map.mp hr
  have hb := (h a ha).box
  have hin := (mem_cells (by rw [hb.len, hb.len2])).mp hu'
  refine ⟨a, ha, inBox_first hin, ?_⟩
  have := inBox_last hin
  rw [toCount_eq, lastPos_cnt (h a ha).le] at this
  exact this

/-- The merged block list before grouping. -/
def mergedL (srt : List (List Nat) → List Nat) (n : Nat) (bs : List CRow) : List CRow :=
  mergeAllL true n (sortL srt (mergeAllL true n bs))

/-- In every group but the last one, no rows are merged. -/
def SettledAll (srt : List (List Nat) → List Nat) (n : Nat) (bs : List CRow) : Prop :=
  ∀ g ∈ (groupRows (mergedL srt n bs)).dropLast, Settled srt n g

theorem fresh_view (bs : List CRow) : (Arr.fresh bs).view 0 bs.length = bs := by
  apply List.ext_getElem
  · simp [Arr.view]
  · intro i h1 h2
    simp [Arr.view, Arr.get, Arr.fresh, h2]

theorem fresh_clean (bs : List CRow) : Clean (Arr.fresh bs) := by
  intro k l h
  exact h

theorem mergedL_ok {srt : List (List Nat) → List Nat} (hs : IsSort srt) {n : Nat} {bs : List CRow}
    (h : ∀ r ∈ bs, EndOK n r) :
    (∀ r ∈ mergedL srt n bs, EndOK n r) ∧ (cellsL ((mergedL srt n bs).map toCount)).Perm (cellsL (bs.map toCount)) ∧
    (bs ≠ [] → mergedL srt n bs ≠ []) := by
  obtain ⟨a1, a2, _, _⟩ := mergeAllL_true n bs h
  have hp := sortL_perm hs (mergeAllL true n bs)
  obtain ⟨b1, b2, _, _⟩ := mergeAllL_true n (sortL srt (mergeAllL true n bs)) (fun r hr => a2 r (hp.mem_iff.mp hr))
  refine ⟨b2, ?_, ?_⟩
  · unfold mergedL
    rw [b1]
    refine (mergeAllL_perm _ _).trans ((cellsL_perm (hp.map _)).trans ?_)
    rw [a1]
    exact mergeAllL_perm _ _
  · intro hne
    unfold mergedL
    apply mergeAllL_ne
    intro he
    have := hp.length_eq
    rw [he] at this
    exact mergeAllL_ne (u := true) n hne (List.length_eq_zero_iff.mp (by simpa using this.symm))

/-- The part of `fromBlocks` before the groups. -/
theorem merged_arr {srt : List (List Nat) → List Nat} (hs : IsSort srt) {n : Nat} {bs : List CRow} (hne : bs ≠ []) :
    ∃ a m2, sortblocks srt 0 (mergeBlocks true n 0 (Arr.fresh bs) bs.length).2
        (mergeBlocks true n 0 (Arr.fresh bs) bs.length).1 = .ok a ∧
      mergeBlocks true n 0 a (mergeBlocks true n 0 (Arr.fresh bs) bs.length).2 = m2 ∧
      m2.1.view 0 m2.2 = mergedL srt n bs ∧
      ((srt ((mergeAllL true n bs).map Prod.fst)).getD 0 0 = 0 → m2.1.ptr 0 = 0) ∧
      Turned 0 bs.length (Arr.fresh bs) (mergedL srt n bs) m2.1 m2.2 := by
  have hpos : 0 < bs.length := List.length_pos_of_ne_nil hne
  obtain ⟨t1, p1⟩ := mergeBlocks_ok true 0 n (Arr.fresh bs) bs.length hpos (fun k l _ _ h => by simpa [Arr.fresh] using h)
  rw [fresh_view] at t1
  obtain ⟨m1, hm1⟩ : ∃ m1, m1 = mergeBlocks true n 0 (Arr.fresh bs) bs.length := ⟨_, rfl⟩
  rw [← hm1] at t1 p1 ⊢
  have hm1pos : 0 < m1.2 := by
    have hl : m1.2 = (mergeAllL true n bs).length := by rw [← t1.view, view_length]
    rw [hl]
    exact List.length_pos_of_ne_nil (mergeAllL_ne n hne)
  obtain ⟨a, e, t2, p2⟩ := sortblocks_ok hs 0 m1.2 m1.1 t1.inj
  obtain ⟨t3, p3⟩ := mergeBlocks_ok true 0 n a m1.2 hm1pos t2.inj
  have hv : a.view 0 m1.2 = sortL srt (mergeAllL true n bs) := by
    rw [t2.view, t1.view]
    unfold sortL
    apply List.map_congr_left
    intro i hi
    have hp := (hs ((mergeAllL true n bs).map Prod.fst)).1
    rw [List.length_map, ← t1.view, view_length] at hp
    have hi' := List.mem_range.mp (hp.mem_iff.mp (by rw [t1.view]; exact hi))
    have : m1.1.get (0 + i) = (m1.1.view 0 m1.2).getD i ([], []) := by
      simp [Arr.view, hi']
    rw [this, t1.view]
  rw [hv] at t3
  refine ⟨a, _, e, rfl, t3.view, ?_, (t1.trans t2).trans t3⟩
  intro h0
  rw [p3]
  have := p2 0 hm1pos
  rw [t1.view, h0] at this
  simp only [Nat.zero_add] at this
  rw [this, p1]
  rfl

theorem mem_groups {l : List CRow} {g : List CRow} (hg : g ∈ groupRows l) {r : CRow} (hr : r ∈ g) : r ∈ l := by
  rw [← groupRows_flatten l]
  exact List.mem_flatten.mpr ⟨g, hg, hr⟩

theorem groups_ok {n : Nat} {l : List CRow} (h : ∀ r ∈ l, EndOK n r) :
    ∀ g ∈ groupRows l, g ≠ [] ∧ ∀ r ∈ g, EndOK n r :=
  fun g hg => ⟨groupRows_ne l g hg, fun r hr => h r (mem_groups hg hr)⟩

theorem flatMap_outL_perm {srt : List (List Nat) → List Nat} (hs : IsSort srt) {n : Nat} (hn : 0 < n) :
    ∀ {gs : List (List CRow)}, (∀ g ∈ gs, ∀ r ∈ g, EndOK n r) →
    (cellsL (gs.flatMap (outL srt n))).Perm (cellsL (gs.flatten.map toCount))
  | [], _ => List.Perm.refl _
  | g :: gs, h => by
    rw [List.flatMap_cons, List.flatten_cons, List.map_append, cellsL_append, cellsL_append]
    exact (outL_perm hs hn (h g (by simp))).append (flatMap_outL_perm hs hn (fun x hx => h x (by simp [hx])))

/-- The hyperslab case with several blocks: result for every block list. -/
theorem fromBlocks_view {srt : List (List Nat) → List Nat} (hs : IsSort srt) {n : Nat} {bs : List CRow}
    (hne : bs ≠ []) (h : ∀ r ∈ bs, EndOK n r) (hset : SettledAll srt n bs) :
    ∃ sel m, fromBlocks srt n bs = (freeFirst m >>= fun _ => pure sel) ∧
      sel.arr.view 0 sel.nsel = (groupRows (mergedL srt n bs)).flatMap (outL srt n) ∧ 0 < sel.nsel ∧
      ((srt ((mergeAllL true n bs).map Prod.fst)).getD 0 0 = 0 → m.ptr 0 = 0) ∧
      ((∀ g ∈ (groupRows (mergedL srt n bs)).head?, g.length = 1 ∨ FirstLeast g) → sel.arr.ptr 0 = 0) := by
  obtain ⟨a, m2, e1, e2, v, p, _⟩ := merged_arr hs (n := n) hne
  obtain ⟨h1, _, h3⟩ := mergedL_ok hs h
  obtain ⟨sel, e3, v3, f3, q3⟩ := fillGroups_ok hs (n := n) (groupRows (mergedL srt n bs)) ⟨Arr.fresh [], 0⟩ (groups_ok h1)
    (fresh_clean []) hset
  refine ⟨sel, m2.1, ?_, by rw [v3]; simp [Arr.view], ?_, p, ?_⟩
  · unfold fromBlocks
    simp only [e1, Res.ok_bind, e2, v, e3]
  · apply q3
    intro he
    have := groupRows_flatten (mergedL srt n bs)
    rw [he] at this
    exact h3 hne this.symm
  · intro hf
    rw [f3 (.inr hf)]
    rfl

/-- No cell is lost, added or duplicated. -/
theorem fromBlocks_perm {srt : List (List Nat) → List Nat} (hs : IsSort srt) {n : Nat} (hn : 0 < n) {bs : List CRow}
    (hne : bs ≠ []) (h : ∀ r ∈ bs, EndOK n r) (hset : SettledAll srt n bs) {sel : Sel}
    (hok : fromBlocks srt n bs = .ok sel) :
    (cellsL (sel.arr.view 0 sel.nsel)).Perm (cellsL (bs.map toCount)) := by
  obtain ⟨sel', m, e, v, _, _, _⟩ := fromBlocks_view hs hne h hset
  rw [e] at hok
  unfold freeFirst at hok
  by_cases hm : m.ptr 0 = 0
  · rw [if_pos hm] at hok
    have : sel' = sel := by simpa using hok
    subst this
    obtain ⟨h1, h2, _⟩ := mergedL_ok hs h
    rw [v]
    refine (flatMap_outL_perm hs hn (fun g hg r hr => h1 r (mem_groups hg hr))).trans ?_
    rw [groupRows_flatten]
    exact h2
  · rw [if_neg hm] at hok
    simp at hok

theorem mergedL_ord {srt : List (List Nat) → List Nat} (hs : IsSort srt) {n : Nat} {bs : List CRow}
    (h : ∀ r ∈ bs, EndOK n r) (ho : Ord bs) :
    Ord (mergedL srt n bs) ∧ srt ((mergeAllL true n bs).map Prod.fst) = List.range (mergeAllL true n bs).length := by
  obtain ⟨_, a2, a3, a4⟩ := mergeAllL_true n bs h
  have o1 := ho.sublist a3 a4
  have hid := srt_id hs ((mergeAllL true n bs).map Prod.fst) (List.pairwise_map.mpr o1.starts)
  rw [List.length_map] at hid
  have hsl : sortL srt (mergeAllL true n bs) = mergeAllL true n bs := by
    unfold sortL
    rw [hid]
    apply List.ext_getElem
    · simp
    · intro i h1 h2
      simp [h2]
  refine ⟨?_, hid⟩
  unfold mergedL
  rw [hsl]
  obtain ⟨_, _, b3, b4⟩ := mergeAllL_true n (mergeAllL true n bs) a2
  exact o1.sublist b3 b4

theorem firstLeast_of {n : Nat} (hn : 0 < n) {g : List CRow} (hg : ∀ r ∈ g, EndOK n r)
    (ho : g.Pairwise (fun a b => RowLt a.1 b.1)) (hd : (cellsL (g.map toCount)).Nodup) : FirstLeast g := by
  unfold FirstLeast
  cases g with
  | nil => simp
  | cons a g =>
    have ha := hg a (by simp)
    obtain ⟨s, e, x, y, ea, hl, _, hle, _⟩ := split_last hn ha
    have e1 : (s ++ [x]).getLastD 0 = x := by simp [List.getLastD_eq_getLast?]
    -- first row of the first block
    have hhead : ((rowsOf a).headD ([], [])).1 = a.1 := by
      have := (bump_chain hle).2.1
      cases hc : cells s (cnt s e) with
      | nil => exact absurd hc cells_ne
      | cons u us =>
        rw [hc] at this
        simp only [List.head?_cons, Option.some.injEq] at this
        subst this
        simp only [ea, rowsOf, List.dropLast_concat, hc, List.map_cons, List.headD_cons, e1]
    obtain ⟨r0, rs, hr⟩ : ∃ r0 rs, rowsOf a = r0 :: rs := by
      cases hc : rowsOf a with
      | nil => exact absurd hc (rowsOf_ne a)
      | cons r0 rs => exact ⟨r0, rs, rfl⟩
    have hfm : (a :: g).flatMap rowsOf = r0 :: (rs ++ g.flatMap rowsOf) := by
      rw [List.flatMap_cons, hr]; rfl
    rw [hr] at hhead
    simp only [List.headD_cons] at hhead
    have hn0 : (cellsL ((a :: g).flatMap rowsOf)).Nodup := by rw [rows_cells hn hg]; exact hd
    rw [hfm] at hn0 ⊢
    simp only [List.tail_cons, List.headD_cons]
    intro q hq
    have hok : ∀ q ∈ (a :: g).flatMap rowsOf, LineOK n q := by
      intro q hq
      obtain ⟨r, hr, hq⟩ := List.mem_flatMap.mp hq
      exact rowsOf_ok hn (hg r hr) q hq
    have hq' : q ∈ (a :: g).flatMap rowsOf := by rw [hfm]; exact List.mem_cons_of_mem _ hq
    have lq := hok q hq'
    have l0 := hok r0 (by rw [hfm]; simp)
    have hqin : q.1 ∈ cellsR q := (mem_cells (by rw [lq.len, lq.len2])).mpr (inBox_start (by rw [lq.len, lq.len2]) lq.pos)
    have h0in : r0.1 ∈ cellsR r0 := (mem_cells (by rw [l0.len, l0.len2])).mpr (inBox_start (by rw [l0.len, l0.len2]) l0.pos)
    -- the start of the row is a cell of some block
    have hcell : q.1 ∈ cellsL ((a :: g).flatMap rowsOf) := List.mem_flatMap.mpr ⟨q, hq', hqin⟩
    rw [rows_cells hn hg] at hcell
    obtain ⟨b', hb', hcb⟩ := List.mem_flatMap.mp hcell
    obtain ⟨b, hb, rfl⟩ := List.mem_map.mp hb'
    have hbb := (hg b hb).box
    have hge : RowLe b.1 q.1 := inBox_first ((mem_cells (s := (toCount b).1) (by rw [hbb.len, hbb.len2])).mp hcb)
    have hge2 : RowLe a.1 q.1 := by
      rcases List.mem_cons.mp hb with rfl | hb
      · exact hge
      · exact .inl (((List.pairwise_cons.mp ho).1 b hb).trans_le hge)
    rw [hhead]
    rcases hge2 with h | h
    · exact h
    · exfalso
      rw [cellsL_cons, List.nodup_append] at hn0
      refine hn0.2.2 r0.1 h0in q.1 (List.mem_flatMap.mpr ⟨q, hq, hqin⟩) ?_
      rw [hhead, h]

theorem nodup_group {gs : List (List CRow)} {g : List CRow} (hg : g ∈ gs) (h : (cellsL (gs.flatten.map toCount)).Nodup) :
    (cellsL (g.map toCount)).Nodup := by
  refine List.Nodup.sublist ?_ h
  unfold cellsL
  exact ((List.sublist_flatten_of_mem hg).map _).flatMap _

/-- The block list of a hyperslab selection: constructor and destructor succeed, and the blocks hold the selected cells in
row-major order. -/
theorem fromBlocks_ok {srt : List (List Nat) → List Nat} (hs : IsSort srt) {n : Nat} (hn : 0 < n) {bs : List CRow}
    (hne : bs ≠ []) (h : ∀ r ∈ bs, EndOK n r) (ho : Ord bs) (hd : (cellsL (bs.map toCount)).Nodup)
    (hset : SettledAll srt n bs) :
    ∃ sel, fromBlocks srt n bs = .ok sel ∧ sel.destroy n = .ok () ∧
      (cellsL (sel.arr.view 0 sel.nsel)).Perm (cellsL (bs.map toCount)) ∧
      (cellsL (sel.arr.view 0 sel.nsel)).Pairwise RowLt ∧ ∀ r ∈ sel.arr.view 0 sel.nsel, BoxOK n r := by
  obtain ⟨sel, m, e, v, hpos, hm, hf⟩ := fromBlocks_view hs hne h hset
  obtain ⟨o, hid⟩ := mergedL_ord hs h ho
  obtain ⟨h1, h2, _⟩ := mergedL_ok hs h
  have hd2 : (cellsL ((mergedL srt n bs).map toCount)).Nodup := h2.nodup_iff.mpr hd
  have hd3 := hd2
  rw [← groupRows_flatten (mergedL srt n bs)] at hd3
  have hm0 : m.ptr 0 = 0 := by
    apply hm
    rw [hid]
    cases (mergeAllL true n bs).length <;> simp [List.range_succ_eq_map]
  have hptr : sel.arr.ptr 0 = 0 := by
    apply hf
    intro g hg
    right
    have hg' := List.mem_of_mem_head? hg
    refine firstLeast_of hn (fun r hr => h1 r (mem_groups hg' hr)) ?_ (nodup_group hg' hd3)
    refine List.Pairwise.sublist (List.sublist_flatten_of_mem hg') ?_
    rw [groupRows_flatten]
    exact o.starts
  have hok : fromBlocks srt n bs = .ok sel := by
    rw [e]
    unfold freeFirst
    rw [if_pos hm0]
    rfl
  refine ⟨sel, hok, ?_, fromBlocks_perm hs hn hne h hset hok, ?_, ?_⟩
  · unfold Sel.destroy freeFirst
    rw [if_neg (by omega), if_pos hptr]
  · rw [v]
    have hfl : cellsL ((groupRows (mergedL srt n bs)).flatMap (outL srt n)) =
        (groupRows (mergedL srt n bs)).flatMap (fun g => cellsL (outL srt n g)) := by
      unfold cellsL; rw [List.flatMap_assoc]
    rw [hfl, List.pairwise_flatMap]
    refine ⟨fun g hg => outL_sorted hs hn (fun r hr => h1 r (mem_groups hg hr)) (nodup_group hg hd3), ?_⟩
    refine (groupRows_apart o).imp_of_mem ?_
    intro g g' hg hg' hap u hu w hw
    obtain ⟨a, ha, _, h4⟩ := outL_between hs hn (fun r hr => h1 r (mem_groups hg hr)) hu
    obtain ⟨b, hb, h5, _⟩ := outL_between hs hn (fun r hr => h1 r (mem_groups hg' hr)) hw
    exact (h4.trans_lt (hap a ha b hb)).trans_le h5
  · rw [v]
    intro r hr
    obtain ⟨g, hg, hr⟩ := List.mem_flatMap.mp hr
    exact outL_box hs hn (fun r hr => h1 r (mem_groups hg hr)) r hr

end Verif
