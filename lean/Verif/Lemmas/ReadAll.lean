import Verif.Lemmas.ReadLog

namespace Verif

open Spec (AW inBox InBlk NoCommon Layout Stored ReadOK bufSize addrOf)

/-- Search results for one requested block. -/
def hitsBlk (q : RReq) (p : Blk × Nat) (ls : List (AW × Int)) : List Hit :=
  (ls.filter (fun x => decide (x.1.did = q.did))).flatMap (fun x =>
    (Spec.sels x.1.d.esize x.1.bs).flatMap (hitOf q p.1 p.2 x.2 x.1.data.length))

/-- Search results of a request. -/
def hitsReq (q : RReq) (ls : List (AW × Int)) : List Hit :=
  (withOffs q.d.esize 0 q.bs).flatMap (fun p => hitsBlk q p ls)

theorem prefixSum_le {bs : List Blk} {i j : Nat} (h : i < j) (hj : j ≤ bs.length) :
    ((bs.take i).map Blk.size).sum + (bs[i]'(by omega)).size ≤ ((bs.take j).map Blk.size).sum := by
  induction bs generalizing i j with
  | nil => simp at hj; omega
  | cons b bs ih =>
    cases j with
    | zero => omega
    | succ j =>
      cases i with
      | zero => simp
      | succ i =>
        simp only [List.length_cons, Nat.add_le_add_iff_right] at hj
        have := ih (i := i) (j := j) (by omega) hj
        simp only [List.take_succ_cons, List.map_cons, List.sum_cons, List.getElem_cons_succ]
        omega

theorem dataOffset_le {e : Nat} {bs : List Blk} {i j : Nat} (h : i < j) (hj : j ≤ bs.length) :
    Spec.dataOffset e bs i + e * (bs[i]'(by omega)).size ≤ Spec.dataOffset e bs j := by
  unfold Spec.dataOffset
  rw [← Nat.mul_add]
  exact Nat.mul_le_mul_left _ (prefixSum_le h hj)

theorem dataOffset_total {e : Nat} {bs : List Blk} :
    Spec.dataOffset e bs bs.length = e * (bs.map Blk.size).sum := by
  simp [Spec.dataOffset]

theorem withOffs_eq (e : Nat) : ∀ (bs : List Blk) (acc : Nat),
    withOffs e acc bs = bs.mapIdx (fun i b => (b, acc + Spec.dataOffset e bs i))
  | [], acc => by simp [withOffs]
  | b :: bs, acc => by
    rw [withOffs, withOffs_eq e bs, List.mapIdx_cons]
    congr 1
    apply List.ext_getElem (by simp)
    intro i h1 h2
    simp only [List.getElem_mapIdx, Prod.mk.injEq, true_and, Spec.dataOffset, List.take_succ_cons,
      List.map_cons, List.sum_cons, Nat.mul_add]
    rw [Nat.mul_comm b.size e]
    omega

/-- Block number `i` of the request list. -/
theorem mem_withOffs {e : Nat} {bs : List Blk} {p : Blk × Nat} :
    p ∈ withOffs e 0 bs ↔ ∃ i, ∃ h : i < bs.length, p = (bs[i], Spec.dataOffset e bs i) := by
  rw [withOffs_eq, List.mem_mapIdx]
  simp only [Nat.zero_add]
  constructor
  · rintro ⟨i, h, rfl⟩; exact ⟨i, h, rfl⟩
  · rintro ⟨i, h, rfl⟩; exact ⟨i, h, rfl⟩

theorem pairwise_mapIdx {α β : Type} {R : β → β → Prop} {f : Nat → α → β} {l : List α}
    (h : ∀ i j (hi : i < l.length) (hj : j < l.length), i < j → R (f i l[i]) (f j l[j])) :
    (l.mapIdx f).Pairwise R := by
  rw [List.pairwise_iff_getElem]
  intro i j hi hj hij
  simp only [List.getElem_mapIdx]
  exact h i j (by simpa using hi) (by simpa using hj) hij

theorem sels_pairwise (e : Nat) (bs : List Blk) :
    (Spec.sels e bs).Pairwise (fun s s' => s.doff + e * prod s.count ≤ s'.doff) := by
  unfold Spec.sels
  apply pairwise_mapIdx
  intro i j hi hj hij
  exact dataOffset_le hij (by omega)

theorem sels_end {e : Nat} {bs : List Blk} {s : MSel} (h : s ∈ Spec.sels e bs) :
    s.doff + e * prod s.count ≤ e * (bs.map Blk.size).sum := by
  obtain ⟨i, hi, rfl⟩ := mem_sels h
  rw [← dataOffset_total]
  exact dataOffset_le hi (Nat.le_refl _)

theorem withOffs_pairwise (e : Nat) (bs : List Blk) :
    (withOffs e 0 bs).Pairwise (fun p p' => p.2 + e * p.1.size ≤ p'.2) := by
  rw [withOffs_eq]
  apply pairwise_mapIdx
  intro i j hi hj hij
  have := dataOffset_le (e := e) hij (by omega : j ≤ bs.length)
  simp only
  omega

section
variable {ls : List (AW × Int)} {qs : List RReq}

/-- Shapes match for every combination. -/
theorem fit_of (ok : ReadOK ls qs) {q : RReq} (hq : q ∈ qs) {p : Blk × Nat}
    (hp : p ∈ withOffs q.d.esize 0 q.bs) {x : AW × Int} (hx : x ∈ ls) (hd : x.1.did = q.did)
    {s : MSel} (hs : s ∈ Spec.sels x.1.d.esize x.1.bs) : Fit q.d.ndim s p.1 := by
  obtain ⟨i, hi, rfl⟩ := mem_sels hs
  have h1 := ok.wshape x hx _ (List.getElem_mem hi)
  have h2 := ok.shape q hq _ (withOffs_mem hp)
  have h3 := (ok.dset x hx q hq hd).1
  exact ⟨by rw [← h3]; exact h1.1, by rw [← h3]; exact h1.2, h2.1, h2.2⟩

/-- All combinations of requests, blocks, writes and written blocks contribute a block of pairs. -/
def pairsBlk (q : RReq) (p : Blk × Nat) (ls : List (AW × Int)) : List (Int × Nat) :=
  (ls.filter (fun x => decide (x.1.did = q.did))).flatMap (fun x =>
    (Spec.sels x.1.d.esize x.1.bs).flatMap (fun s =>
      blkPairs q.d.esize (x.2 + s.doff) (q.xbuf + p.2) s p.1))

theorem hitsBlk_pairs (ok : ReadOK ls qs) {q : RReq} (hq : q ∈ qs) {p : Blk × Nat}
    (hp : p ∈ withOffs q.d.esize 0 q.bs) : (hitsBlk q p ls).flatMap hitPairs = pairsBlk q p ls := by
  unfold hitsBlk pairsBlk
  rw [List.flatMap_assoc]
  apply List.flatMap_congr
  intro x hx
  rw [List.mem_filter, decide_eq_true_eq] at hx
  rw [List.flatMap_assoc]
  apply List.flatMap_congr
  intro s hs
  exact hitOf_pairs (fit_of ok hq hp hx.1 hx.2 hs)

theorem hits_pairs (ok : ReadOK ls qs) :
    (qs.flatMap (fun q => hitsReq q ls)).flatMap hitPairs =
      qs.flatMap (fun q => (withOffs q.d.esize 0 q.bs).flatMap (fun p => pairsBlk q p ls)) := by
  rw [List.flatMap_assoc]
  apply List.flatMap_congr
  intro q hq
  unfold hitsReq
  rw [List.flatMap_assoc]
  apply List.flatMap_congr
  intro p hp
  exact hitsBlk_pairs ok hq hp

theorem mem_pairsBlk {q : RReq} {p : Blk × Nat} {u : Int × Nat} (h : u ∈ pairsBlk q p ls) :
    ∃ x ∈ ls, x.1.did = q.did ∧ ∃ s ∈ Spec.sels x.1.d.esize x.1.bs,
      u ∈ blkPairs q.d.esize (x.2 + s.doff) (q.xbuf + p.2) s p.1 := by
  unfold pairsBlk at h
  obtain ⟨x, hx, h⟩ := List.mem_flatMap.mp h
  rw [List.mem_filter, decide_eq_true_eq] at hx
  obtain ⟨s, hs, h⟩ := List.mem_flatMap.mp h
  exact ⟨x, hx.1, hx.2, s, hs, h⟩

/-- A file byte belongs to one written block. -/
theorem file_unique (hl : Layout ls) {x x' : AW × Int} (hx : x ∈ ls) (hx' : x' ∈ ls) {s s' : MSel}
    (hs : s ∈ Spec.sels x.1.d.esize x.1.bs) (hs' : s' ∈ Spec.sels x'.1.d.esize x'.1.bs) {f : Int}
    (h1 : x.2 + s.doff ≤ f) (h2 : f < x.2 + s.doff + (x.1.d.esize * prod s.count : Nat))
    (h1' : x'.2 + s'.doff ≤ f) (h2' : f < x'.2 + s'.doff + (x'.1.d.esize * prod s'.count : Nat)) :
    x = x' ∧ s = s' := by
  have e1 := sels_end hs
  have e1' := sels_end hs'
  have z := hl.sized x hx
  have z' := hl.sized x' hx'
  unfold AW.Sized at z z'
  have e1 := Nat.le_trans e1 z.1
  have e1' := Nat.le_trans e1' z'.1
  rcases pairwise_mem hl.order hx hx' with rfl | h | h
  · refine ⟨rfl, ?_⟩
    rcases pairwise_mem (sels_pairwise _ _) hs hs' with h | h | h
    · exact h
    · omega
    · omega
  · omega
  · omega

end

end Verif
