import Verif.Lemmas.CollMeta
import Verif.Spec.Coll

/-
The effect of the flushes on a group is that of the atomic steps of `FState`.
-/

namespace Verif

variable {n : Net}

theorem pick {β : Type} {l : List Nat} (hnd : l.Nodup) (gs : List β) (h : gs.length = l.length) (d : β) :
    l.map (fun r => gs.getD (l.idxOf r) d) = gs := by
  refine List.ext_getElem (by simp [h]) (fun i h1 h2 => ?_)
  have hi : i < l.length := by simpa using h1
  rw [List.getElem_map, hnd.idxOf_getElem i hi, List.getD_eq_getElem?_getD, List.getElem?_eq_getElem h2, Option.getD_some]

theorem exscan_getD (l : List Nat) (acc i : Nat) (h : i < l.length) : (exscan acc l).getD i 0 = acc + (l.take i).sum := by
  induction l generalizing acc i with
  | nil => simp at h
  | cons a l ih =>
    cases i with
    | zero => simp [exscan]
    | succ i =>
      have := ih (acc + a) i (by simpa using h)
      simp only [exscan, List.getD_cons_succ, List.take_succ_cons, List.sum_cons, this]
      omega

/-- `before` is the exclusive sum of the sizes. -/
theorem before_eq {sub : Bool} (hok : n.ok sub) {p : Nat → Proc} {c : Comm} (hc : c ∈ n.comms) {r : Nat} (hr : r ∈ n.mem c) :
    n.before p r = (exscan 0 ((n.ranks p c).map Rank.localSize)).getD ((n.mem c).idxOf r) 0 := by
  have hg : n.gc r = c := ((mem_gc hok hc).mp hr).2
  rw [exscan_getD _ _ _ (by simpa [Net.ranks] using List.idxOf_lt_length_of_mem hr), Nat.zero_add]
  simp only [Net.before, hg, Net.ranks, List.map_map]
  rfl

theorem total_eq (p : Nat → Proc) (c : Comm) : n.total p c = ((n.ranks p c).map Rank.localSize).sum := by
  simp only [Net.total, Net.ranks, List.map_map]
  rfl

theorem zero_total {p : Nat → Proc} (h : n.total p .world = 0) (c : Comm) : n.total p c = 0 :=
  Decidable.byContradiction (fun hx => total_le hx h)

theorem flush_sees {sub : Bool} (hok : n.ok sub) {p : Nat → Proc} {W : Comm → Store} {c : Comm} (hc : c ∈ n.comms)
    {st st' : FState} (h : n.Sees c st p W) (hf : st.flush (W c).next = .ok st') :
    n.Sees c st' (flushed n p W) (flushedW n p W) := by
  obtain ⟨h1, h2, h3, h4⟩ := h
  have hgc : ∀ r ∈ n.mem c, n.gc r = c := fun r hr => ((mem_gc hok hc).mp hr).2
  unfold FState.flush at hf
  split at hf
  · simp only [h1] at hf
    by_cases h0 : n.total p c = 0
    · rw [if_pos (by rw [← total_eq]; exact h0)] at hf
      cases hf
      refine ⟨?_, ?_, ?_, ?_⟩
      · show (n.ranks p c).map Rank.setLocal = _
        simp only [Net.ranks, List.map_map]
        refine List.map_congr_left (fun r hr => ?_)
        simp only [Function.comp, flushed, hgc r hr, h0, ne_eq, not_true_eq_false, if_false]
        split <;> rfl
      · simp only [flushedW, h0, ne_eq, not_true_eq_false, and_false, if_false, h2]
      · simp only [flushedW, h0, ne_eq, not_true_eq_false, and_false, if_false, h3]
      · simp only [flushedW, h0, ne_eq, not_true_eq_false, and_false, if_false, h4]
    · have hw : n.total p .world ≠ 0 := total_le h0
      rw [if_neg (by rw [← total_eq]; exact h0)] at hf
      cases hf
      have hoffs : exscan 0 ((n.ranks p c).map Rank.localSize) = (n.mem c).map (fun r => n.before p r) := by
        rw [← pick (mem_nodup (n := n) c) (exscan 0 ((n.ranks p c).map Rank.localSize)) (by simp [Net.ranks, exscan_length]) 0]
        exact List.map_congr_left (fun r hr => (before_eq hok hc hr).symm)
      refine ⟨?_, ?_, ?_, ?_⟩
      · show List.zipWith _ (n.ranks p c) (exscan 0 ((n.ranks p c).map Rank.localSize)) = _
        rw [hoffs]
        simp only [Net.ranks, List.zipWith_map, List.zipWith_self]
        refine List.map_congr_left (fun r hr => ?_)
        simp only [flushed, hgc r hr, if_pos hw, if_pos h0]
      · show List.foldl _ st.disk ((n.ranks p c).zip (exscan 0 ((n.ranks p c).map Rank.localSize))) = _
        rw [hoffs]
        simp only [flushedW, if_pos (show c ∈ n.comms ∧ n.total p c ≠ 0 from ⟨hc, h0⟩), Net.ranks, List.zip_map', List.foldl_map, h2]
      · show st.lds ++ _ = _
        simp only [flushedW, if_pos (show c ∈ n.comms ∧ n.total p c ≠ 0 from ⟨hc, h0⟩), h3]
        rw [total_eq]
      · show st.mds = _
        simp only [flushedW, if_pos (show c ∈ n.comms ∧ n.total p c ≠ 0 from ⟨hc, h0⟩), h4]
  · cases hf

theorem meta_sees {sub : Bool} (hok : n.ok sub) {p : Nat → Proc} {W : Comm → Store} {c : Comm} (hc : c ∈ n.comms)
    {st : FState} (h : n.Sees c st p W) : n.Sees c (st.metaflush (W c).next) (metaed n p) (metaedW n p W) := by
  obtain ⟨h1, h2, h3, h4⟩ := h
  have hgc : ∀ r ∈ n.mem c, n.gc r = c := fun r hr => ((mem_gc hok hc).mp hr).2
  have hlen : (n.ranks p c).length = n.len c := by simp [Net.ranks, Net.len]
  have hranks : (st.metaflush (W c).next).ranks = n.ranks (metaed n p) c := by
    show st.ranks.map (fun _ => Rank.init) = _
    rw [h1]
    simp only [Net.ranks, List.map_map]
    rfl
  have hcond : n.hasMeta p c = true ↔ 8 * (st.ranks.length + 1) < (mdSizes st.ranks).sum := by
    rw [h1, hlen]
    simp [Net.hasMeta]
  by_cases hm : n.hasMeta p c = true
  · have hx : c ∈ n.comms ∧ n.hasMeta p c = true := ⟨hc, hm⟩
    have e : st.metaflush (W c).next = { st with
        disk := ((mdBufs st.ranks).zip (exscan 0 (mdSizes st.ranks))).foldl (fun d p => writeAt d (p.2 + (W c).next) p.1) st.disk
        mds := st.mds ++ [⟨(W c).next, (mdSizes st.ranks).sum⟩]
        ranks := st.ranks.map (fun _ => Rank.init)
        idx := st.idx.map (fun _ => none)
        metadirty := false } := by
      simp only [FState.metaflush, if_pos (hcond.mp hm)]
    have hlb : (mdBufs st.ranks).length = (n.mem c).length := by simp [mdBufs, h1, Net.ranks]
    have hls : (exscan 0 (mdSizes st.ranks)).length = (n.mem c).length := by
      simp [mdSizes, h1, Net.ranks, exscan_length]
    have b1 := pick (mem_nodup c) (mdBufs st.ranks) hlb []
    have b2 := pick (mem_nodup c) (exscan 0 (mdSizes st.ranks)) hls 0
    refine ⟨hranks, ?_, ?_, ?_⟩
    · rw [e]
      show List.foldl _ st.disk _ = _
      rw [← b1, ← b2, List.zip_map', List.foldl_map]
      simp only [metaedW, if_pos hx, h2]
      refine foldl_congr_mem (fun d r hr => ?_)
      simp only [Net.pos, hgc r hr, h1]
    · rw [e]
      simp only [metaedW, if_pos hx, h3]
    · rw [e]
      simp only [metaedW, if_pos hx, h4, h1]
  · have hx : ¬ (c ∈ n.comms ∧ n.hasMeta p c = true) := fun y => hm y.2
    have e : st.metaflush (W c).next = { st with
        ranks := st.ranks.map (fun _ => Rank.init)
        idx := st.idx.map (fun _ => none)
        metadirty := false } := by
      simp only [FState.metaflush, if_neg (fun y => hm (hcond.mpr y))]
    refine ⟨hranks, ?_, ?_, ?_⟩
    · rw [e]
      simp only [metaedW, if_neg hx, h2]
    · rw [e]
      simp only [metaedW, if_neg hx, h3]
    · rw [e]
      simp only [metaedW, if_neg hx, h4]

end Verif
