import Verif.Lemmas.EvalSel

namespace Verif
open Spec

theorem blocks_shape {n : Nat} {sel : Sel} (hb : ∀ r ∈ sel.arr.view 0 sel.nsel, BoxOK n r) :
    ∀ b ∈ sel.blocks, b.start.length = n ∧ b.count.length = n := by
  intro b hb'
  obtain ⟨r, hr, rfl⟩ := List.mem_map.mp hb'
  exact ⟨(hb r hr).len, (hb r hr).len2⟩

theorem cellsB_blocks (sel : Sel) : cellsB sel.blocks = cellsL (sel.arr.view 0 sel.nsel) := cellsB_view _

theorem nodup_of_sorted {l : List (List Nat)} (h : l.Pairwise RowLt) : l.Nodup :=
  h.imp (fun huv he => by subst he; exact RowLt.irrefl huv)

/-- Blocks without common cells represent their cells. -/
theorem sel_exact {n : Nat} {sel : Sel} (hb : ∀ r ∈ sel.arr.view 0 sel.nsel, BoxOK n r)
    (hd : (cellsL (sel.arr.view 0 sel.nsel)).Nodup) : Exact n sel.blocks (cellsL (sel.arr.view 0 sel.nsel)) := by
  have hsh := blocks_shape hb
  rw [← cellsB_blocks] at hd ⊢
  refine ⟨?_, fun b h x hx => (mem_cellsB hsh).mpr ⟨b, h, hx⟩, holds_cellsB hsh hd⟩
  intro b hb'
  obtain ⟨r, hr, rfl⟩ := List.mem_map.mp hb'
  exact ⟨(hb r hr).len, (hb r hr).len2, (hb r hr).pos⟩

/-- The blocks hold the selected cells in row-major order. -/
theorem sel_good {n : Nat} {sel : Sel} (hb : ∀ r ∈ sel.arr.view 0 sel.nsel, BoxOK n r)
    (hs : (cellsL (sel.arr.view 0 sel.nsel)).Pairwise RowLt) {P : List Nat → Prop}
    (hP : ∀ x, x ∈ cellsL (sel.arr.view 0 sel.nsel) ↔ P x) :
    ∃ xs, RowMajor P xs ∧ Exact n sel.blocks xs :=
  ⟨_, ⟨hs, hP⟩, sel_exact hb (nodup_of_sorted hs)⟩

theorem mem_ends {n : Nat} {bs : List CRow} (h : ∀ r ∈ bs, Block n r.1 r.2) (x : List Nat) :
    x ∈ cellsL (bs.map toCount) ↔ ∃ r ∈ bs, inEnds r.1 r.2 x = true := by
  simp only [cellsL, List.mem_flatMap, List.mem_map, exists_exists_and_eq_and]
  constructor
  · rintro ⟨r, hr, hx⟩
    have hb := (endOK_of_block (h r hr)).box
    exact ⟨r, hr, by rw [inEnds_eq (h r hr)]; exact (mem_cells (hb.len.trans hb.len2.symm)).mp hx⟩
  · rintro ⟨r, hr, hx⟩
    have hb := (endOK_of_block (h r hr)).box
    rw [inEnds_eq (h r hr)] at hx
    exact ⟨r, hr, (mem_cells (hb.len.trans hb.len2.symm)).mpr hx⟩

theorem selOne_view (s c : List Nat) : (selOne s c).arr.view 0 (selOne s c).nsel = [(s, c)] := fresh_view [(s, c)]

theorem selOne_box {n : Nat} {s c : List Nat} (h : BoxOK n (s, c)) :
    ∀ r ∈ (selOne s c).arr.view 0 (selOne s c).nsel, BoxOK n r := by
  rw [selOne_view]
  simpa using h

theorem selOne_sorted {n : Nat} {s c : List Nat} (h : BoxOK n (s, c)) :
    (cellsL ((selOne s c).arr.view 0 (selOne s c).nsel)).Pairwise RowLt := by
  rw [selOne_view]
  simp only [cellsL, List.flatMap_cons, List.flatMap_nil, List.append_nil]
  exact cells_sorted (h.len.trans h.len2.symm)

theorem selOne_mem {n : Nat} {s c : List Nat} (h : BoxOK n (s, c)) (x : List Nat) :
    x ∈ cellsL ((selOne s c).arr.view 0 (selOne s c).nsel) ↔ inBox s c x = true := by
  rw [selOne_view]
  simp only [cellsL, List.flatMap_cons, List.flatMap_nil, List.append_nil]
  exact mem_cells (h.len.trans h.len2.symm)

theorem selOne_destroy (n : Nat) (s c : List Nat) : (selOne s c).destroy n = .ok () := by
  unfold Sel.destroy freeFirst
  split
  · rfl
  · rfl

/-- Hyperslab selections that do not take the shortcut. -/
theorem fromHyper_ok {srt : List (List Nat) → List Nat} (hs : IsSort srt) {n : Nat} (hn : 0 < n) {reg : Option Hyper}
    (hreg : reg.bind shortcut = none) {bs : List CRow}
    (hne : bs ≠ []) (h : ∀ r ∈ bs, EndOK n r) (ho : Ord bs) (hd : (cellsL (bs.map toCount)).Nodup)
    (hset : SettledAll srt n bs) :
    ∃ sel, fromHyper srt n reg bs = .ok sel ∧ sel.destroy n = .ok () ∧
      (cellsL (sel.arr.view 0 sel.nsel)).Perm (cellsL (bs.map toCount)) ∧
      (cellsL (sel.arr.view 0 sel.nsel)).Pairwise RowLt ∧ ∀ r ∈ sel.arr.view 0 sel.nsel, BoxOK n r := by
  unfold fromHyper
  rw [hreg]
  simp only [Option.elim_none]
  rw [if_neg (by simpa using hne)]
  split
  · rename_i h1
    obtain ⟨r, rfl⟩ := List.length_eq_one_iff.mp h1
    have hb := (h r (by simp)).box
    refine ⟨_, rfl, selOne_destroy n _ _, ?_, selOne_sorted (n := n) hb, selOne_box (n := n) hb⟩
    rw [selOne_view]
    exact List.Perm.refl _
  · exact fromBlocks_ok hs hn hne h ho hd hset

/-- The same for every block list, if the constructor succeeds. -/
theorem fromHyper_perm {srt : List (List Nat) → List Nat} (hs : IsSort srt) {n : Nat} (hn : 0 < n) {reg : Option Hyper}
    (hreg : reg.bind shortcut = none) {bs : List CRow}
    (h : ∀ r ∈ bs, EndOK n r) (hset : SettledAll srt n bs) {sel : Sel} (hok : fromHyper srt n reg bs = .ok sel) :
    (cellsL (sel.arr.view 0 sel.nsel)).Perm (cellsL (bs.map toCount)) := by
  unfold fromHyper at hok
  rw [hreg] at hok
  simp only [Option.elim_none] at hok
  split at hok
  · simp at hok
  · split at hok
    · rename_i h0 h1
      obtain ⟨r, rfl⟩ := List.length_eq_one_iff.mp h1
      simp only [Res.ok.injEq] at hok
      subst hok
      rw [selOne_view]
      exact List.Perm.refl _
    · rename_i h0 _
      exact fromBlocks_perm hs hn (by intro he; subst he; simp at h0) h hset hok

/-! ### Number of blocks with a cell -/

theorem nodup_cells {s c : List Nat} (h : s.length = c.length) : (cells s c).Nodup := nodup_of_sorted (cells_sorted h)

theorem count_cells {s c x : List Nat} (h : s.length = c.length) :
    (cells s c).count x = if inBox s c x then 1 else 0 := by
  split
  · rename_i hx
    exact List.count_eq_one_of_mem (nodup_cells h) ((mem_cells h).mpr hx)
  · rename_i hx
    exact List.count_eq_zero_of_not_mem (fun hm => hx ((mem_cells h).mp hm))

theorem timesIn_count {n : Nat} : ∀ {bs : List Blk}, (∀ b ∈ bs, b.start.length = n ∧ b.count.length = n) →
    ∀ x, timesIn bs x = (cellsB bs).count x
  | [], _, x => by simp [timesIn, cellsB]
  | b :: bs, h, x => by
    have ih := timesIn_count (n := n) (bs := bs) (fun c hc => h c (by simp [hc])) x
    have hb := h b (by simp)
    have he : cellsB (b :: bs) = cells b.start b.count ++ cellsB bs := List.flatMap_cons
    rw [he, List.count_append, ← ih, count_cells (hb.1.trans hb.2.symm)]
    unfold timesIn
    rw [List.filter_cons]
    by_cases hx : InBlk b x
    · rw [if_pos (by simpa using hx)]
      have : inBox b.start b.count x = true := hx
      rw [if_pos this]
      simp [Nat.add_comm]
    · rw [if_neg (by simpa using hx)]
      have : ¬ inBox b.start b.count x = true := hx
      rw [if_neg this]
      simp

theorem timesInEnds_count {n : Nat} : ∀ {bs : List CRow}, (∀ b ∈ bs, Block n b.1 b.2) →
    ∀ x, timesInEnds bs x = (cellsL (bs.map toCount)).count x
  | [], _, x => by simp [timesInEnds, cellsL]
  | b :: bs, h, x => by
    have ih := timesInEnds_count (n := n) (bs := bs) (fun c hc => h c (by simp [hc])) x
    have hb := h b (by simp)
    have hbox := (endOK_of_block hb).box
    rw [List.map_cons, cellsL_cons, List.count_append, ← ih]
    have hc : (cells b.1 (toCount b).2).count x = if inBox b.1 (toCount b).2 x then 1 else 0 :=
      count_cells (hbox.len.trans hbox.len2.symm)
    have hc' : (cellsR (toCount b)).count x = if inBox b.1 (toCount b).2 x then 1 else 0 := hc
    rw [hc']
    unfold timesInEnds
    rw [List.filter_cons, inEnds_eq hb, toCount_eq]
    split <;> simp [Nat.add_comm]

theorem sel_times {n : Nat} {sel : Sel} (hb : ∀ r ∈ sel.arr.view 0 sel.nsel, BoxOK n r) {bs : List CRow}
    (h : ∀ b ∈ bs, Block n b.1 b.2) (hp : (cellsL (sel.arr.view 0 sel.nsel)).Perm (cellsL (bs.map toCount))) :
    ∀ x, timesIn sel.blocks x = timesInEnds bs x := by
  intro x
  rw [timesIn_count (blocks_shape hb), timesInEnds_count h, cellsB_blocks]
  exact hp.count_eq x

/-! ### Points -/

theorem cells_point : ∀ p : List Nat, cells p (List.replicate p.length 1) = [p]
  | [] => rfl
  | a :: p => by
    have ih := cells_point p
    have := cells_cons a 1 p (List.replicate p.length 1)
    rw [List.length_cons, List.replicate_succ, this, ih]
    rfl

theorem points_cells {n : Nat} : ∀ {ps : List (List Nat)}, (∀ p ∈ ps, p.length = n) →
    cellsL (ps.map (fun p => (p, List.replicate n 1))) = ps
  | [], _ => rfl
  | p :: ps, h => by
    rw [List.map_cons, cellsL_cons, points_cells (fun q hq => h q (by simp [hq]))]
    have hp := h p (by simp)
    have : cellsR (p, List.replicate n 1) = [p] := by
      subst hp; exact cells_point p
    rw [this]
    rfl

/-- Point selections: the blocks are the sorted points, merged. -/
theorem fromPoints_view {srt : List (List Nat) → List Nat} (hs : IsSort srt) {n : Nat} {ps : List (List Nat)} (hne : ps ≠ []) :
    (fromPoints srt n ps).arr.view 0 (fromPoints srt n ps).nsel =
      mergeAllL false n (sortL srt (ps.map (fun p => (p, List.replicate n 1)))) ∧
    (fromPoints srt n ps).arr.ptr 0 = (srt ps).getD 0 0 := by
  have hpos : 0 < ps.length := List.length_pos_of_ne_nil hne
  unfold fromPoints
  rw [if_neg (by omega)]
  obtain ⟨hp, _⟩ := hs ps
  have hlen : (srt ps).length = ps.length := by simpa using hp.length_eq
  obtain ⟨t, p⟩ := mergeBlocks_ok false 0 n
    { Arr.fresh (ps.map (fun p => (p, List.replicate n 1))) with ptr := fun i => (srt ps).getD i i } ps.length hpos (by
      intro k l hk hl h
      have hk' : k < (srt ps).length := by omega
      have hl' : l < (srt ps).length := by omega
      simp only [Nat.zero_add, List.getD_eq_getElem?_getD, hk', hl', List.getElem?_eq_getElem, Option.getD_some] at h
      exact (List.Nodup.getElem_inj_iff (hp.nodup_iff.mpr List.nodup_range)).mp h)
  refine ⟨?_, ?_⟩
  · rw [t.view]
    congr 1
    unfold sortL
    have hk : (ps.map (fun p => (p, List.replicate n 1))).map Prod.fst = ps := by
      rw [List.map_map]; simp [Function.comp_def]
    rw [hk]
    apply List.ext_getElem
    · simp [Arr.view, hlen]
    · intro i h1 h2
      have hi : i < (srt ps).length := by simpa using h2
      simp [Arr.view, Arr.get, Arr.fresh, hi]
  · simp only
    rw [p]

theorem point_box {n : Nat} {ps : List (List Nat)} (h : ∀ p ∈ ps, p.length = n) :
    ∀ r ∈ ps.map (fun p => (p, List.replicate n 1)), BoxOK n r := by
  intro r hr
  obtain ⟨p, hp, rfl⟩ := List.mem_map.mp hr
  exact ⟨h p hp, by simp, by simp⟩

theorem fromPoints_perm {srt : List (List Nat) → List Nat} (hs : IsSort srt) {n : Nat} {ps : List (List Nat)}
    (h : ∀ p ∈ ps, p.length = n) :
    (∀ r ∈ (fromPoints srt n ps).arr.view 0 (fromPoints srt n ps).nsel, BoxOK n r) ∧
    (cellsL ((fromPoints srt n ps).arr.view 0 (fromPoints srt n ps).nsel)).Perm ps := by
  by_cases hne : ps = []
  · subst hne
    simp [fromPoints, Arr.view, cellsL]
  · rw [(fromPoints_view hs hne).1]
    have hp := sortL_perm hs (ps.map (fun p => (p, List.replicate n 1)))
    refine ⟨mergeAllL_box n _ (fun y hy => point_box h y (hp.mem_iff.mp hy)), ?_⟩
    refine (mergeAllL_perm _ _).trans ((cellsL_perm hp).trans ?_)
    rw [points_cells h]

theorem fromPoints_ok {srt : List (List Nat) → List Nat} (hs : IsSort srt) {n : Nat} {ps : List (List Nat)}
    (h : ∀ p ∈ ps, p.length = n) (ho : ps.Pairwise RowLt) :
    (fromPoints srt n ps).destroy n = .ok () ∧ cellsL ((fromPoints srt n ps).arr.view 0 (fromPoints srt n ps).nsel) = ps := by
  by_cases hne : ps = []
  · subst hne
    simp [fromPoints, Arr.view, cellsL, Sel.destroy]
  · obtain ⟨v, p⟩ := fromPoints_view hs (n := n) hne
    have hid := srt_id hs ps ho
    constructor
    · unfold Sel.destroy freeFirst
      rw [p, hid]
      have : 0 < ps.length := List.length_pos_of_ne_nil hne
      split
      · rfl
      · rw [if_pos (by simp [this])]
    · rw [v]
      have hsl : sortL srt (ps.map (fun p => (p, List.replicate n 1))) = ps.map (fun p => (p, List.replicate n 1)) := by
        unfold sortL
        have hk : (ps.map (fun p => (p, List.replicate n 1))).map Prod.fst = ps := by
          rw [List.map_map]; simp [Function.comp_def]
        rw [hk, hid]
        apply List.ext_getElem
        · simp
        · intro i h1 h2
          have : i < ps.length := by simpa using h2
          simp [this]
      rw [hsl, mergeAllL_keep (n := n) n _ (point_box h), points_cells h]
      rw [points_cells h]
      exact ho

/-! ### Block lists in row-major order -/

theorem sorted_of_ordered {n : Nat} {bs : List CRow} (h : ∀ r ∈ bs, EndOK n r)
    (ho : bs.Pairwise (fun a b => RowLt a.2 b.1)) :
    Ord bs ∧ (cellsL (bs.map toCount)).Pairwise RowLt := by
  have hse : ∀ r ∈ bs, RowLe r.1 r.2 := by
    intro r hr
    have hb := (h r hr).box
    have := inBox_first ((mem_cells (s := (toCount r).1) (hb.len.trans hb.len2.symm)).mp (h r hr).last)
    exact this
  refine ⟨⟨?_, ?_⟩, ?_⟩
  · refine ho.imp_of_mem ?_
    intro a b ha hb hab
    exact (hse a ha).trans_lt hab
  · refine ho.imp_of_mem ?_
    intro a b ha hb hab
    exact hab.trans_le (hse b hb)
  · unfold cellsL
    rw [List.pairwise_flatMap]
    constructor
    · intro r hr
      obtain ⟨a, ha, rfl⟩ := List.mem_map.mp hr
      have hb := (h a ha).box
      exact cells_sorted (hb.len.trans hb.len2.symm)
    · rw [List.pairwise_map]
      refine ho.imp_of_mem ?_
      intro a b ha hb hab u hu v hv
      have ba := (h a ha).box
      have bb := (h b hb).box
      have h1 := inBox_last ((mem_cells (s := (toCount a).1) (ba.len.trans ba.len2.symm)).mp hu)
      have h2 := inBox_first ((mem_cells (s := (toCount b).1) (bb.len.trans bb.len2.symm)).mp hv)
      rw [toCount_eq, lastPos_cnt (h a ha).le] at h1
      exact (h1.trans_lt hab).trans_le h2

end Verif
