import Verif.Lemmas.ReadSpec
import Verif.Spec.File

/-
A write of several blocks as a sequence of writes of single blocks; writes confined to a record.
-/

namespace Verif

open Spec (AW InBlk splitWrite cellByte lastByte dataOffset positions idxIn)

theorem lastByte_append (l1 l2 : List AW) (did : Nat) (x : List Nat) (k : Nat) :
    lastByte (l1 ++ l2) did x k = (lastByte l2 did x k).or (lastByte l1 did x k) := by
  unfold lastByte
  rw [List.filter_append, List.filterMap_append, List.getLast?_append]

theorem lastByte_single (w : AW) (did : Nat) (x : List Nat) (k : Nat) :
    lastByte [w] did x k = if w.did = did then cellByte w x k else none := by
  unfold lastByte
  by_cases h : w.did = did
  · simp only [h, decide_true, List.filter_cons_of_pos, List.filter_nil, if_true]
    cases hc : cellByte w x k <;> simp [hc]
  · simp [h]

theorem idxIn_lt {b : Blk} {x : List Nat} (h : InBlk b x) : idxIn b x < b.size := by
  rw [Spec.idxIn, rowIndex_eq _ _ _ _ h]
  simpa [Blk.size] using lin_lt h

/-- Byte of one block of a split write. -/
theorem cellByte_piece {w : AW} {i : Nat} (hi : i < w.bs.length) {x : List Nat} {k : Nat}
    (hk : k < w.d.esize) :
    cellByte (AW.mk w.did w.d [w.bs[i]] ((w.data.drop (dataOffset w.d.esize w.bs i)).take
      (w.d.esize * w.bs[i].size))) x k =
      if InBlk w.bs[i] x then w.data[dataOffset w.d.esize w.bs i + w.d.esize * idxIn w.bs[i] x + k]?
      else none := by
  unfold cellByte positions
  simp only [List.mapIdx_cons, List.mapIdx_nil, List.flatten_cons, List.flatten_nil, List.append_nil]
  by_cases h : InBlk w.bs[i] x
  · rw [if_pos h, if_pos h]
    have h1 := idxIn_lt h
    have h2 : w.d.esize * idxIn w.bs[i] x + k < w.d.esize * w.bs[i].size := by
      have : w.d.esize * (idxIn w.bs[i] x + 1) ≤ w.d.esize * w.bs[i].size := Nat.mul_le_mul_left _ h1
      rw [Nat.mul_add] at this
      omega
    have h0 : dataOffset w.d.esize [w.bs[i]] 0 = 0 := by simp [dataOffset]
    simp only [List.getLast?_singleton, Option.bind_some, h0, Nat.zero_add]
    rw [List.getElem?_take_of_lt h2, List.getElem?_drop, ← Nat.add_assoc]
  · rw [if_neg h, if_neg h]; rfl

theorem splitWrite_did {w v : AW} (h : v ∈ splitWrite w) : v.did = w.did := by
  unfold splitWrite at h
  rw [List.mem_mapIdx] at h
  obtain ⟨i, hi, rfl⟩ := h
  rfl

/-- A write of several blocks and the writes of its blocks in order leave the same cells. -/
theorem lastByte_split {w : AW} (hw : w.Sized) (did : Nat) (x : List Nat) {k : Nat} (hk : k < w.d.esize) :
    lastByte (splitWrite w) did x k = lastByte [w] did x k := by
  rw [lastByte_single]
  by_cases hd : w.did = did
  · rw [if_pos hd]
    unfold lastByte
    have hf : (splitWrite w).filter (fun v => decide (v.did = did)) = splitWrite w := by
      rw [List.filter_eq_self]
      intro v hv
      rw [splitWrite_did hv, hd]; simp
    have hm : (splitWrite w).filterMap (fun v => cellByte v x k) =
        (positions w.d.esize w.bs x).filterMap (fun p => w.data[p + k]?) := by
      unfold splitWrite positions
      rw [← List.flatMap_id, List.filterMap_flatMap]
      rw [List.filterMap_eq_flatMap_toList]
      rw [List.flatMap_def, List.flatMap_def]
      congr 1
      apply List.ext_getElem (by simp)
      intro i h1 h2
      have hi : i < w.bs.length := by simpa using h1
      simp only [List.getElem_map, List.getElem_mapIdx, id]
      rw [cellByte_piece hi hk]
      by_cases h : InBlk w.bs[i] x
      · rw [if_pos h, if_pos h]
        cases hh : w.data[dataOffset w.d.esize w.bs i + w.d.esize * idxIn w.bs[i] x + k]? <;> simp [hh]
      · rw [if_neg h, if_neg h]; rfl
    rw [hf, hm]
    unfold cellByte
    have hall : ∀ p ∈ positions w.d.esize w.bs x, ∃ v, w.data[p + k]? = some v := by
      intro p hp
      have := positions_lt hw hp hk
      exact ⟨_, List.getElem?_eq_getElem this⟩
    generalize positions w.d.esize w.bs x = ps at hall ⊢
    rcases List.eq_nil_or_concat ps with rfl | ⟨ps', p, rfl⟩
    · rfl
    · obtain ⟨v, hv⟩ := hall p (by simp)
      rw [List.concat_eq_append, List.filterMap_append, List.getLast?_append, List.getLast?_append]
      simp [hv]
  · rw [if_neg hd]
    unfold lastByte
    have hf : (splitWrite w).filter (fun v => decide (v.did = did)) = [] := by
      rw [List.filter_eq_nil_iff]
      intro v hv
      rw [splitWrite_did hv]; simp [hd]
    rw [hf]; rfl

/-- The last block that contains the cell counts. -/
theorem cellByte_last {w : AW} {i : Nat} (hi : i < w.bs.length) {x : List Nat}
    (hx : InBlk w.bs[i] x) (hlast : ∀ j, ∀ hj : j < w.bs.length, i < j → ¬ InBlk w.bs[j] x) (k : Nat) :
    cellByte w x k = w.data[dataOffset w.d.esize w.bs i + w.d.esize * idxIn w.bs[i] x + k]? := by
  have hp : (positions w.d.esize w.bs x).getLast? =
      some (dataOffset w.d.esize w.bs i + w.d.esize * idxIn w.bs[i] x) := by
    unfold positions
    rw [← List.take_append_drop (i + 1) (List.mapIdx _ w.bs), List.flatten_append]
    have hnil : ((w.bs.mapIdx (fun i b => if InBlk b x then
        [dataOffset w.d.esize w.bs i + w.d.esize * idxIn b x] else [])).drop (i + 1)).flatten = [] := by
      rw [List.flatten_eq_nil_iff]
      intro l hl
      rw [List.mem_iff_getElem] at hl
      obtain ⟨j, hj, rfl⟩ := hl
      rw [List.length_drop, List.length_mapIdx] at hj
      rw [List.getElem_drop, List.getElem_mapIdx, if_neg (hlast _ (by omega) (by omega))]
    rw [hnil, List.append_nil, List.take_succ_eq_append_getElem (by simpa using hi), List.flatten_append]
    simp only [List.getElem_mapIdx, List.flatten_cons, List.flatten_nil, List.append_nil]
    rw [if_pos hx, List.getLast?_append]
    rfl
  unfold cellByte
  rw [hp]
  rfl

end Verif
