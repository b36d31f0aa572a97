import Verif.Lemmas.NormTop
import Verif.Lemmas.ReadSpec
import Verif.Spec.Dataspace

namespace Verif
open Spec

/-! ### The position of a cell in the buffer -/

theorem range_grid (n m : Nat) : (List.range n).flatMap (fun x => (List.range m).map (fun y => x * m + y)) =
    List.range (n * m) := by
  induction n with
  | zero => simp
  | succ n ih =>
    rw [List.range_succ, List.flatMap_append, List.flatMap_singleton, ih, Nat.succ_mul, List.range_add]

theorem lin_boxIdx : ∀ ns : List Nat, (boxIdx ns).map (lin ns) = List.range (prod ns)
  | [] => rfl
  | n :: ns => by
    have ih := lin_boxIdx ns
    simp only [boxIdx, List.map_flatMap, List.map_map, prod_cons]
    rw [← range_grid]
    apply List.flatMap_congr
    intro x _
    rw [← ih, List.map_map]
    apply List.map_congr_left
    intro y _
    simp [lin]

theorem subs_adds : ∀ {s x : List Nat}, x.length = s.length → subs (adds s x) s = x
  | [], [], _ => rfl
  | s :: ss, x :: xs, h => by
    have := subs_adds (s := ss) (x := xs) (by simpa using h)
    simp only [subs, adds, List.zipWith_cons_cons] at this ⊢
    rw [this]
    congr 1
    omega
  | [], _ :: _, h => by simp at h
  | _ :: _, [], h => by simp at h

theorem idxIn_cells {s c : List Nat} (h : s.length = c.length) (k : Nat) (hk : k < (cells s c).length) :
    idxIn ⟨s, c⟩ (cells s c)[k] = k := by
  have hm : InBlk ⟨s, c⟩ (cells s c)[k] := (mem_cells h).mp (List.getElem_mem hk)
  rw [idxIn_eq hm]
  have hk' : k < (boxIdx c).length := by simpa [cells] using hk
  have h1 : (cells s c)[k] = adds s (boxIdx c)[k] := by simp [cells]
  rw [h1, subs_adds (by rw [boxIdx_length (List.getElem_mem hk'), h])]
  have h2 := lin_boxIdx c
  have h3 : ((boxIdx c).map (lin c))[k]'(by simpa using hk') = (List.range (prod c))[k]'(by rw [← h2]; simpa using hk') := by
    simp only [h2]
  simpa using h3

theorem positions_cons (e : Nat) (b : Blk) (bs : List Blk) (x : List Nat) :
    positions e (b :: bs) x = (if InBlk b x then [e * idxIn b x] else []) ++
      (positions e bs x).map (fun p => e * b.size + p) := by
  unfold positions
  rw [List.mapIdx_cons, List.flatten_cons, List.map_flatten]
  congr 1
  · simp [dataOffset]
  · congr 1
    apply List.ext_getElem (by simp)
    intro i h1 h2
    simp only [List.getElem_mapIdx, List.getElem_map, dataOffset, List.take_succ_cons, List.map_cons, List.sum_cons,
      Nat.mul_add]
    split <;> simp [Nat.add_assoc]

theorem positions_nil (e : Nat) (bs : List Blk) (x : List Nat) (h : ∀ b ∈ bs, ¬ InBlk b x) : positions e bs x = [] := by
  induction bs with
  | nil => rfl
  | cons b bs ih =>
    rw [positions_cons, if_neg (h b (by simp)), ih (fun c hc => h c (by simp [hc]))]
    rfl

/-- Cells of blocks, block after block. -/
def cellsB (bs : List Blk) : List (List Nat) := bs.flatMap (fun b => cells b.start b.count)

theorem cellsB_view (l : List CRow) : cellsB (l.map (fun r => ⟨r.1, r.2⟩)) = cellsL l := by
  simp only [cellsB, cellsL, List.flatMap_map]
  rfl

theorem mem_cellsB {n : Nat} {bs : List Blk} (h : ∀ b ∈ bs, b.start.length = n ∧ b.count.length = n) {x : List Nat} :
    x ∈ cellsB bs ↔ ∃ b ∈ bs, InBlk b x := by
  unfold cellsB
  rw [List.mem_flatMap]
  constructor
  · rintro ⟨b, hb, hx⟩
    exact ⟨b, hb, (mem_cells (by rw [(h b hb).1, (h b hb).2])).mp hx⟩
  · rintro ⟨b, hb, hx⟩
    exact ⟨b, hb, (mem_cells (by rw [(h b hb).1, (h b hb).2])).mpr hx⟩

theorem cellsB_length {n : Nat} {bs : List Blk} (h : ∀ b ∈ bs, b.start.length = n ∧ b.count.length = n) :
    (cellsB bs).length = (bs.map Blk.size).sum := by
  unfold cellsB
  rw [List.length_flatMap]
  congr 1
  apply List.map_congr_left
  intro b hb
  rw [cells_length (by rw [(h b hb).1, (h b hb).2])]
  rfl

theorem positions_cellsB {n : Nat} (e : Nat) : ∀ {bs : List Blk}, (∀ b ∈ bs, b.start.length = n ∧ b.count.length = n) →
    (cellsB bs).Nodup → ∀ (k : Nat) (hk : k < (cellsB bs).length), positions e bs (cellsB bs)[k] = [e * k]
  | [], _, _, k, hk => by simp [cellsB] at hk
  | b :: bs, h, hd, k, hk => by
    have hb := h b (by simp)
    have hbs : ∀ c ∈ bs, c.start.length = n ∧ c.count.length = n := fun c hc => h c (by simp [hc])
    have hl : b.start.length = b.count.length := by rw [hb.1, hb.2]
    have he : cellsB (b :: bs) = cells b.start b.count ++ cellsB bs := List.flatMap_cons
    rw [positions_cons]
    simp only [he] at hk hd ⊢
    have hd' := List.nodup_append.mp hd
    have hsize : (cells b.start b.count).length = b.size := cells_length hl
    rw [List.getElem_append]
    by_cases hkb : k < (cells b.start b.count).length
    · rw [dif_pos hkb]
      have hin : InBlk b (cells b.start b.count)[k] := (mem_cells hl).mp (List.getElem_mem hkb)
      rw [if_pos hin, idxIn_cells hl k hkb, positions_nil]
      · rfl
      · intro c hc hic
        exact hd'.2.2 _ (List.getElem_mem hkb) _ ((mem_cellsB hbs).mpr ⟨c, hc, hic⟩) rfl
    · rw [dif_neg hkb]
      have hk2 : k - (cells b.start b.count).length < (cellsB bs).length := by
        rw [List.length_append] at hk; omega
      rw [positions_cellsB e hbs hd'.2.1 _ hk2, if_neg]
      · simp only [List.nil_append, List.map_cons, List.map_nil, List.cons.injEq, and_true]
        rw [hsize, ← Nat.mul_add]
        congr 1
        omega
      · intro hin
        exact hd'.2.2 _ ((mem_cells hl).mpr hin) _ (List.getElem_mem hk2) rfl

theorem holds_cellsB {n : Nat} {bs : List Blk} (h : ∀ b ∈ bs, b.start.length = n ∧ b.count.length = n)
    (hd : (cellsB bs).Nodup) : Holds bs (cellsB bs) := by
  intro e
  refine ⟨?_, fun k hk => positions_cellsB e h hd k hk⟩
  rw [dataOffset_total, cellsB_length h]

/-! ### Block lists reported by HDF5 -/

/-- In the first dimension where the blocks differ, the first one ends before the second one begins. -/
def SteppedE : List Nat → List Nat → List Nat → List Nat → Prop
  | s :: ss, e :: es, s' :: ss', e' :: es' => e < s' ∨ (s = s' ∧ e = e' ∧ SteppedE ss es ss' es')
  | _, _, _, _ => False

theorem steppedE_ord : ∀ {s e s' e' : List Nat}, List.Forall₂ (· ≤ ·) s e → List.Forall₂ (· ≤ ·) s' e' →
    SteppedE s e s' e' → RowLt s s' ∧ RowLt e e' ∧ ∀ x, ¬ (inBox s (cnt s e) x = true ∧ inBox s' (cnt s' e') x = true)
  | _, _, _, _, .nil, _, h => by simp [SteppedE] at h
  | _, _, _, _, .cons _ _, .nil, h => by simp [SteppedE] at h
  | s :: ss, e :: es, s' :: ss', e' :: es', .cons h1 h2, .cons h3 h4, h => by
    have hc : cnt (s :: ss) (e :: es) = (e - s + 1) :: cnt ss es := rfl
    have hc' : cnt (s' :: ss') (e' :: es') = (e' - s' + 1) :: cnt ss' es' := rfl
    rw [hc, hc']
    simp only [SteppedE] at h
    rcases h with h | ⟨rfl, rfl, h⟩
    · refine ⟨.inl (by omega), .inl (by omega), ?_⟩
      rintro (_ | ⟨x, xs⟩) hx
      · simp [inBox] at hx
      · simp only [inBox, Bool.and_eq_true, decide_eq_true_eq] at hx
        omega
    · obtain ⟨i1, i2, i3⟩ := steppedE_ord h2 h4 h
      refine ⟨.inr ⟨rfl, i1⟩, .inr ⟨rfl, i2⟩, ?_⟩
      rintro (_ | ⟨x, xs⟩) hx
      · simp [inBox] at hx
      · simp only [inBox, Bool.and_eq_true] at hx
        exact i3 xs ⟨hx.1.2, hx.2.2⟩

theorem ord_of_stepped {n : Nat} {bs : List CRow} (h : ∀ r ∈ bs, EndOK n r)
    (hp : bs.Pairwise (fun a b => SteppedE a.1 a.2 b.1 b.2)) : Ord bs ∧ (cellsL (bs.map toCount)).Nodup := by
  have hall : bs.Pairwise (fun a b => RowLt a.1 b.1 ∧ RowLt a.2 b.2 ∧
      ∀ x, ¬ (inBox a.1 (cnt a.1 a.2) x = true ∧ inBox b.1 (cnt b.1 b.2) x = true)) :=
    hp.imp_of_mem (fun ha hb hab => steppedE_ord (h _ ha).le (h _ hb).le hab)
  refine ⟨⟨hall.imp (fun h => h.1), hall.imp (fun h => h.2.1)⟩, ?_⟩
  unfold cellsL
  rw [List.nodup_flatMap]
  constructor
  · intro r hr
    obtain ⟨a, ha, rfl⟩ := List.mem_map.mp hr
    have hb := (h a ha).box
    refine (cells_sorted (hb.len.trans hb.len2.symm)).imp ?_
    intro u v huv he
    subst he
    exact RowLt.irrefl huv
  · rw [List.pairwise_map]
    refine hall.imp_of_mem ?_
    intro a b ha hb hab x hx hy
    have ba := (h a ha).box
    have bb := (h b hb).box
    exact hab.2.2 x ⟨(mem_cells (ba.len.trans ba.len2.symm)).mp hx,
      (mem_cells (bb.len.trans bb.len2.symm)).mp hy⟩

/-! ### Blocks that do not interleave -/

theorem sorted_perm_eq {a b : List (List Nat)} (h : a.Perm b) (ha : a.Pairwise RowLt) (hb : b.Pairwise RowLt) : a = b := by
  refine List.Perm.eq_of_pairwise (le := RowLt) ?_ ha hb h
  intro x y _ _ h1 h2
  exact absurd h2 (fun h2 => RowLt.asymm h1 h2)

theorem mergeL_keep {n d : Nat} : ∀ (x : CRow) (r : List CRow), (∀ y ∈ x :: r, BoxOK n y) →
    (cellsL (x :: r)).Pairwise RowLt → cellsL (mergeL false d x r) = cellsL (x :: r)
  | x, [], _, _ => by simp [mergeL]
  | x, y :: r, h, hs => by
    have hx := h x (by simp)
    have hy := h y (by simp)
    unfold mergeL
    split
    · rename_i hm
      have hb : BoxOK n (x.1, mergeCount false d x.2 y.2) :=
        ⟨hx.len, by rw [mergeCount_length]; exact hx.len2, mergeCount_pos hx.pos⟩
      have he : cells x.1 (mergeCount false d x.2 y.2) = cells x.1 x.2 ++ cells y.1 y.2 := by
        apply sorted_perm_eq (merge_cells_perm hm) (cells_sorted (hb.len.trans hb.len2.symm))
        rw [cellsL_cons, cellsL_cons, ← List.append_assoc] at hs
        exact (List.pairwise_append.mp hs).1
      have he' : cellsL ((x.1, mergeCount false d x.2 y.2) :: r) = cellsL (x :: y :: r) := by
        rw [cellsL_cons, cellsL_cons, cellsL_cons, ← List.append_assoc]
        congr 1
      rw [mergeL_keep (n := n), he']
      · intro z hz
        rcases List.mem_cons.mp hz with rfl | hz
        · exact hb
        · exact h z (by simp [hz])
      · rw [he']; exact hs
    · rw [cellsL_cons, mergeL_keep (n := n) y r (fun z hz => h z (List.mem_cons_of_mem _ hz)), ← cellsL_cons]
      rw [cellsL_cons] at hs
      exact (List.pairwise_append.mp hs).2.1

theorem mergeAllL_keep {n : Nat} : ∀ (nd : Nat) (l : List CRow), (∀ y ∈ l, BoxOK n y) → (cellsL l).Pairwise RowLt →
    cellsL (mergeAllL false nd l) = cellsL l
  | 0, _, _, _ => rfl
  | nd + 1, l, h, hs => by
    unfold mergeAllL
    have h1 : cellsL (mergeDimL false nd l) = cellsL l := by
      cases l with
      | nil => rfl
      | cons x r => exact mergeL_keep x r h hs
    have h2 : ∀ y ∈ mergeDimL false nd l, BoxOK n y := by
      cases l with
      | nil => simp [mergeDimL]
      | cons x r => exact mergeL_box x r h
    rw [mergeAllL_keep nd _ h2 (by rw [h1]; exact hs), h1]

theorem EndOK.first {n : Nat} {r : CRow} (h : EndOK n r) : r.1 ∈ cellsR (toCount r) :=
  (mem_cells (h.box.len.trans h.box.len2.symm)).mpr (inBox_start (h.box.len.trans h.box.len2.symm) h.box.pos)

theorem EndOK.last {n : Nat} {r : CRow} (h : EndOK n r) : r.2 ∈ cellsR (toCount r) := by
  have := (bump_chain h.le).2.2.1
  exact List.mem_of_getLast? this

theorem groupFrom_single {n : Nat} : ∀ (x : CRow) (r : List CRow), (∀ y ∈ x :: r, EndOK n y) →
    (cellsL ((x :: r).map toCount)).Pairwise RowLt → ∀ g ∈ groupFrom x r, g.length = 1
  | x, [], _, _ => by simp [groupFrom]
  | x, y :: r, h, hs => by
    have hx := h x (by simp)
    have hy := h y (by simp)
    rw [List.map_cons, List.map_cons, cellsL_cons, cellsL_cons] at hs
    have hs' := List.pairwise_append.mp hs
    have hlt : RowLt x.2 y.1 := hs'.2.2 _ hx.last _ (List.mem_append_left _ hy.first)
    unfold groupFrom
    rw [if_pos (rowLt_iff.mpr hlt)]
    intro g hg
    rcases List.mem_cons.mp hg with rfl | hg
    · rfl
    · exact groupFrom_single y r (fun z hz => h z (List.mem_cons_of_mem _ hz)) hs'.2.1 g hg

/-- Block lists in row-major order: all groups are single blocks. -/
theorem settled_of_sorted {srt : List (List Nat) → List Nat} (hs : IsSort srt) {n : Nat} {bs : List CRow}
    (h : ∀ r ∈ bs, EndOK n r) (ho : Ord bs) (hc : (cellsL (bs.map toCount)).Pairwise RowLt) : SettledAll srt n bs := by
  have h1 : ∀ l : List CRow, (∀ r ∈ l, EndOK n r) → (cellsL (l.map toCount)).Pairwise RowLt →
      (cellsL ((mergeAllL true n l).map toCount)).Pairwise RowLt := by
    intro l hl hc
    rw [(mergeAllL_true n l hl).1, mergeAllL_keep (n := n) n _ _ hc]
    · exact hc
    · intro y hy
      obtain ⟨r, hr, rfl⟩ := List.mem_map.mp hy
      exact (hl r hr).box
  have hm : (cellsL ((mergedL srt n bs).map toCount)).Pairwise RowLt := by
    obtain ⟨_, hid⟩ := mergedL_ord hs h ho
    have hsl : sortL srt (mergeAllL true n bs) = mergeAllL true n bs := by
      unfold sortL
      rw [hid]
      apply List.ext_getElem
      · simp
      · intro i h1 h2
        simp [h2]
    unfold mergedL
    rw [hsl]
    exact h1 _ (mergeAllL_true n bs h).2.1 (h1 bs h hc)
  intro g hg
  left
  have hg' := List.mem_of_mem_dropLast hg
  have hok := (mergedL_ok hs h).1
  cases hl : mergedL srt n bs with
  | nil => rw [hl] at hg'; simp [groupRows] at hg'
  | cons x r =>
    rw [hl] at hg' hm hok
    exact groupFrom_single x r hok hm g hg'

end Verif
