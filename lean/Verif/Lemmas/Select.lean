import Verif.Props.Regular
import Verif.Spec.Select
import Verif.Props.Dataspace
import Verif.Lemmas.Split

namespace Verif
open Spec

theorem rowMajor_unique {P : List Nat → Prop} {xs ys : List (List Nat)} (hx : RowMajor P xs) (hy : RowMajor P ys) :
    xs = ys := by
  refine sorted_perm_eq ?_ hx.1 hy.1
  rw [List.perm_ext_iff_of_nodup (nodup_of_sorted hx.1) (nodup_of_sorted hy.1)]
  intro a
  rw [hx.2, hy.2]

/-- Supported selections are represented exactly and in the order of the buffer. -/
theorem select_ok {srt : List (List Nat) → List Nat} (hs : IsSort srt) {n : Nat} {sel : H5Sel} {xs : List (List Nat)}
    (hc : Chosen n sel xs) (hp : Supported n sel) :
    ∃ s, selections srt n sel = .ok s ∧ s.destroy n = .ok () ∧ Exact n s.blocks xs ∧ xs.Pairwise RowLt := by
  match sel, hc, hp with
  | .hyper none bs, hc, hp =>
    obtain ⟨t, ht, hne, rfl, hx⟩ := hc
    obtain ⟨hn, hp⟩ := hp
    rcases hp with rfl | hp
    · obtain ⟨s, e, d, ys, hy, h⟩ := Props.C14_line_partial hs ht hne
      rw [rowMajor_unique hx hy]
      exact ⟨s, e, d, h, hy.1⟩
    · obtain ⟨s, e, d, ys, hy, h⟩ := Props.C14_ordered_partial hs hn ht hne hp
      rw [rowMajor_unique hx hy]
      exact ⟨s, e, d, h, hy.1⟩
  | .hyper (some ⟨s, t, c, b⟩) bs, hc, hp =>
    obtain ⟨hl, hg, rfl, hx⟩ := hc
    obtain ⟨hn, hi⟩ := hp
    simp only at hl hg hx hi
    subst hl
    obtain ⟨s', e, d, ys, hy, h⟩ := (Props.C14_exact_partial hs hn hg).mpr hi
    rw [rowMajor_unique hx hy]
    exact ⟨s', e, d, h, hy.1⟩
  | .points ps, hc, hp =>
    obtain ⟨hl, rfl⟩ := hc
    obtain ⟨s, e, d, h⟩ := Props.C14_points_partial hs hl hp
    exact ⟨s, e, d, h, hp⟩
  | .all dims, hc, _ =>
    obtain ⟨rfl, hx⟩ := hc
    obtain ⟨s, e, d, ys, hy, h⟩ := Props.C14_all_partial srt dims
    rw [rowMajor_unique hx hy]
    exact ⟨s, e, d, h, hy.1⟩
  | .none, hc, _ =>
    simp only [Chosen] at hc
    subst hc
    refine ⟨⟨Arr.fresh [], 0⟩, rfl, by simp [Sel.destroy], ?_, .nil⟩
    exact ⟨by simp [Sel.blocks, Arr.view], by simp [Sel.blocks, Arr.view], fun e => by
      simp [Sel.blocks, Arr.view, Spec.dataOffset]⟩

theorem mem_positions {e : Nat} {bs : List Blk} {x : List Nat} {p : Nat} :
    p ∈ positions e bs x ↔ ∃ (i : Nat) (h : i < bs.length), InBlk bs[i] x ∧ p = dataOffset e bs i + e * idxIn bs[i] x := by
  unfold positions
  rw [List.mem_flatten]
  constructor
  · rintro ⟨l, hl, hp⟩
    rw [List.mem_mapIdx] at hl
    obtain ⟨i, h, rfl⟩ := hl
    split at hp
    · rename_i hin
      exact ⟨i, h, hin, by simpa using hp⟩
    · simp at hp
  · rintro ⟨i, h, hin, rfl⟩
    exact ⟨_, List.mem_mapIdx.mpr ⟨i, h, rfl⟩, by rw [if_pos hin]; simp⟩

/-- The place of a cell of a block in the list of cells. -/
theorem Spec.Exact.place {n : Nat} {bs : List Blk} {xs : List (List Nat)} (h : Exact n bs xs) {i : Nat}
    (hi : i < bs.length) {x : List Nat} (hx : InBlk bs[i] x) (e : Nat) :
    ∃ (k : Nat) (hk : k < xs.length), xs[k] = x ∧ dataOffset e bs i + e * idxIn bs[i] x = e * k := by
  obtain ⟨k, hk, e1⟩ := List.getElem_of_mem (h.cover _ (List.getElem_mem hi) _ hx)
  refine ⟨k, hk, e1, ?_⟩
  have h1 := (h.holds e).2 k hk
  rw [e1] at h1
  have h2 : dataOffset e bs i + e * idxIn bs[i] x ∈ positions e bs x := mem_positions.mpr ⟨i, hi, hx, rfl⟩
  rw [h1] at h2
  simpa using h2

/-- A cell of the list is in a block, at its place. -/
theorem Spec.Exact.block {n : Nat} {bs : List Blk} {xs : List (List Nat)} (h : Exact n bs xs) {k : Nat}
    (hk : k < xs.length) (e : Nat) :
    ∃ (i : Nat) (hi : i < bs.length), InBlk bs[i] xs[k] ∧ dataOffset e bs i + e * idxIn bs[i] xs[k] = e * k := by
  have h1 := (h.holds e).2 k hk
  have h2 : e * k ∈ positions e bs xs[k] := by rw [h1]; simp
  obtain ⟨i, hi, hin, h3⟩ := mem_positions.mp h2
  exact ⟨i, hi, hin, h3.symm⟩

/-- The blocks follow one another in row-major order. -/
theorem Spec.Exact.sorted {n : Nat} {bs : List Blk} {xs : List (List Nat)} (h : Exact n bs xs) (hs : xs.Pairwise RowLt) :
    bs.Pairwise (fun a b => ∀ x y, InBlk a x → InBlk b y → RowLt x y) := by
  rw [List.pairwise_iff_getElem]
  intro i j hi hj hij x y hx hy
  obtain ⟨k, hk, rfl, p1⟩ := h.place hi hx 1
  obtain ⟨l, hl, rfl, p2⟩ := h.place hj hy 1
  have h1 := dataOffset_le (e := 1) (bs := bs) hij (Nat.le_of_lt hj)
  have h2 := idxIn_lt hx
  exact List.pairwise_iff_getElem.mp hs k l hk hl (by omega)

theorem Spec.Exact.noCommon {n : Nat} {bs : List Blk} {xs : List (List Nat)} (h : Exact n bs xs) (hs : xs.Pairwise RowLt) :
    bs.Pairwise NoCommon :=
  (h.sorted hs).imp (fun hab x hx => RowLt.irrefl (hab x x hx.1 hx.2))

theorem Spec.Exact.separate {n : Nat} {bs : List Blk} {xs : List (List Nat)} (h : Exact n bs xs) (hs : xs.Pairwise RowLt) :
    bs.Pairwise Separate :=
  (h.sorted hs).imp (fun hab => .inl hab)

theorem inBox_end : ∀ {s c : List Nat}, s.length = c.length → (∀ n ∈ c, 1 ≤ n) →
    inBox s c (List.zipWith (fun a n => a + n - 1) s c) = true
  | [], [], _, _ => rfl
  | s :: ss, c :: cs, h, hp => by
    have := hp c (by simp)
    simp only [List.zipWith_cons_cons, inBox, Bool.and_eq_true, decide_eq_true_eq]
    exact ⟨by omega, inBox_end (by simpa using h) (fun n hn => hp n (by simp [hn]))⟩
  | [], _ :: _, h, _ => by simp at h
  | _ :: _, [], h, _ => by simp at h

theorem last_bound : ∀ {s c dims : List Nat}, s.length = c.length → (∀ n ∈ c, 1 ≤ n) →
    List.Forall₂ (· < ·) (List.zipWith (fun a n => a + n - 1) s c) dims →
    (∀ n ∈ c, ∃ m ∈ dims, n ≤ m) ∧ (∀ a ∈ s, ∃ m ∈ dims, a < m)
  | [], [], _, _, _, _ => by simp
  | s :: ss, c :: cs, dims, h, hp, hf => by
    rw [List.zipWith_cons_cons] at hf
    cases hf with
    | cons h1 h2 =>
      rename_i d ds
      have := hp c (by simp)
      obtain ⟨i1, i2⟩ := last_bound (by simpa using h) (fun n hn => hp n (by simp [hn])) h2
      constructor
      · intro n hn
        rcases List.mem_cons.mp hn with rfl | hn
        · exact ⟨d, by simp, by omega⟩
        · obtain ⟨m, hm, h3⟩ := i1 n hn
          exact ⟨m, by simp [hm], h3⟩
      · intro n hn
        rcases List.mem_cons.mp hn with rfl | hn
        · exact ⟨d, by simp, by omega⟩
        · obtain ⟨m, hm, h3⟩ := i2 n hn
          exact ⟨m, by simp [hm], h3⟩
  | [], _ :: _, _, h, _, _ => by simp at h
  | _ :: _, [], _, h, _, _ => by simp at h

/-- Counts and starts of blocks whose cells have coordinates below `2^31`. -/
theorem Spec.Exact.bounds {n : Nat} {bs : List Blk} {xs : List (List Nat)} (h : Exact n bs xs) {dims : List Nat}
    (hw : ∀ x ∈ xs, List.Forall₂ (· < ·) x dims) (hd : ∀ m ∈ dims, m < 2 ^ 31) :
    ∀ b ∈ bs, (∀ c ∈ b.count, c < 2 ^ 31) ∧ ∀ a ∈ b.start, a < 2 ^ 31 := by
  intro b hb
  obtain ⟨l1, l2, hp⟩ := h.shape b hb
  have hl : b.start.length = b.count.length := by rw [l1, l2]
  obtain ⟨b1, b2⟩ := last_bound hl hp (hw _ (h.cover b hb _ (inBox_end hl hp)))
  constructor
  · intro c hc
    obtain ⟨m, hm, h1⟩ := b1 c hc
    have := hd m hm
    omega
  · intro c hc
    obtain ⟨m, hm, h1⟩ := b2 c hc
    have := hd m hm
    omega

/-- The number of blocks is at most the number of cells. -/
theorem Spec.Exact.count_le {n : Nat} {bs : List Blk} {xs : List (List Nat)} (h : Exact n bs xs) :
    bs.length ≤ xs.length ∧ (bs.map Blk.size).sum = xs.length := by
  have h1 := (h.holds 1).1
  rw [dataOffset_total] at h1
  have h2 : (bs.map Blk.size).sum = xs.length := by simpa using h1
  refine ⟨?_, h2⟩
  rw [← h2]
  have : ∀ l : List Blk, (∀ b ∈ l, 1 ≤ b.size) → l.length ≤ (l.map Blk.size).sum := by
    intro l
    induction l with
    | nil => simp
    | cons b l ih =>
      intro hl
      have := hl b (by simp)
      have := ih (fun c hc => hl c (by simp [hc]))
      simp only [List.length_cons, List.map_cons, List.sum_cons]
      omega
  refine this bs (fun b hb => ?_)
  obtain ⟨_, _, hp⟩ := h.shape b hb
  have : ∀ l : List Nat, (∀ c ∈ l, 1 ≤ c) → 1 ≤ prod l := by
    intro l
    induction l with
    | nil => simp [prod]
    | cons c l ih =>
      intro hl
      rw [prod_cons]
      exact Nat.mul_pos (hl c (by simp)) (ih (fun x hx => hl x (by simp [hx])))
  exact this _ hp

theorem cellByte_exact {w : AW} {u : UW} {n : Nat} (h : Exact n w.bs u.cells) (hd : w.d = u.d) (hda : w.data = u.data)
    (x : List Nat) (k : Nat) : cellByte w x k = elemByte u x k := by
  unfold cellByte elemByte
  rw [hd, hda]
  cases hf : u.cells.findIdx? (fun y => decide (y = x)) with
  | none =>
    rw [List.findIdx?_eq_none_iff] at hf
    rw [positions_nil]
    · rfl
    · intro b hb hin
      have := hf x (h.cover b hb x hin)
      simp at this
  | some i =>
    obtain ⟨hi, h1, _⟩ := List.findIdx?_eq_some_iff_getElem.mp hf
    have h1 : u.cells[i] = x := by simpa using h1
    have := (h.holds u.d.esize).2 i hi
    rw [h1] at this
    rw [this]
    rfl

theorem made_exact {srt : List (List Nat) → List Nat} (hs : IsSort srt) {w : AW} {u : UW} (h : Made srt w u) :
    Exact u.d.ndim w.bs u.cells := by
  obtain ⟨s, e, hb⟩ := h.blocks
  obtain ⟨s', e', _, hx, _⟩ := select_ok hs h.ok.chosen h.ok.supp
  rw [e] at e'
  cases e'
  rw [hb]
  exact hx

theorem lastByte_elem {srt : List (List Nat) → List Nat} (hs : IsSort srt) {ws : List AW} {us : List UW}
    (h : List.Forall₂ (Made srt) ws us) (did : Nat) (x : List Nat) (k : Nat) : lastByte ws did x k = lastElem us did x k := by
  unfold lastByte lastElem
  congr 1
  induction h with
  | nil => rfl
  | cons h1 _ ih =>
    simp only [List.filter_cons, h1.did]
    split
    · rw [List.filterMap_cons, List.filterMap_cons, cellByte_exact (made_exact hs h1) h1.d h1.data, ih]
    · exact ih

theorem made_heads {srt : List (List Nat) → List Nat} (hs : IsSort srt) {ws : List AW} {us : List UW}
    (h : List.Forall₂ (Made srt) ws us) : ∀ w ∈ ws, ∀ b ∈ w.bs, ∀ n, b.start.head? = some n → n < 2 ^ 31 := by
  intro w hw b hb n hn
  obtain ⟨u, h1⟩ : ∃ u, Made srt w u := by
    induction h with
    | nil => simp at hw
    | cons h1 _ ih =>
      rcases List.mem_cons.mp hw with rfl | hw
      · exact ⟨_, h1⟩
      · exact ih hw
  exact ((made_exact hs h1).bounds h1.ok.within h1.ok.dims b hb).2 n (List.mem_of_mem_head? hn)

/-- From the result for blocks to the result for elements. -/
theorem returns_elems {srt : List (List Nat) → List Nat} (hs : IsSort srt) {st : FState} {r : Nat} {q : RReq} {ws : List AW}
    {us : List UW} {xs : List (List Nat)} (h : List.Forall₂ (Made srt) ws us) (hx : Exact q.d.ndim q.bs xs)
    (hr : Returns st r [q] ws) : ReturnsElems st r q xs us := by
  obtain ⟨n, hr⟩ := hr
  refine ⟨n, fun fuel hfu fill mem => ?_⟩
  obtain ⟨h1, h2⟩ := hr fuel hfu fill mem
  refine ⟨h1, fun out ho => ?_⟩
  obtain ⟨mem', e, h3⟩ := h2 out ho
  refine ⟨mem', e, ?_, ?_⟩
  · intro k hk j hj
    obtain ⟨i, hi, hin, he⟩ := hx.block hk q.d.esize
    have h4 := h3.val q (by simp) i hi _ hin j hj
    have h5 : addrOf q i q.bs[i] xs[k] j = q.xbuf + q.d.esize * k + j := by
      unfold addrOf
      rw [Nat.add_assoc q.xbuf, he]
    rw [h5] at h4
    rw [h4]
    unfold expected expectedElem
    rw [lastByte_elem hs h]
    rfl
  · intro p hp
    refine h3.out p ?_
    intro q' hq' hh
    rw [List.mem_singleton] at hq'
    subst hq'
    refine hp ⟨hh.1, ?_⟩
    have := (hx.holds q'.d.esize).1
    rw [← this]
    exact hh.2

/-- Requests made for a supported selection inside the dataset. -/
theorem select_req {q : RReq} {xs : List (List Nat)} (hx : Exact q.d.ndim q.bs xs) (hs : xs.Pairwise RowLt)
    (hw : ∀ x ∈ xs, List.Forall₂ (· < ·) x q.d.dims) (hd : ∀ m ∈ q.d.dims, m < 2 ^ 31) (compact : Bool) {dsets : DSets}
    (hds : dsets[q.did]? = some (some q.d)) (he : 0 < q.d.esize) : ReqsOK compact dsets [q] ∧ Viewable [q] := by
  have hb := hx.bounds hw hd
  constructor
  · refine ⟨?_, ?_, ?_, ?_, ?_, ?_, List.pairwise_singleton _ _, List.pairwise_singleton _ _⟩
    · simpa using hds
    · simpa using he
    · intro q' hq' b hb'
      rw [List.mem_singleton] at hq'
      subst hq'
      exact ⟨(hx.shape b hb').1, (hx.shape b hb').2.1⟩
    · intro q' hq' b hb'
      rw [List.mem_singleton] at hq'
      subst hq'
      exact (hb b hb').1
    · intro _ q' hq' b hb' n hn
      rw [List.mem_singleton] at hq'
      subst hq'
      exact (hb b hb').2 n (List.mem_of_mem_head? hn)
    · intro q' hq'
      rw [List.mem_singleton] at hq'
      subst hq'
      exact hx.noCommon hs
  · have key : ∀ {R : Blk → Blk → Prop}, q.bs.Pairwise R → ∀ q' ∈ [q], q'.bs.Pairwise R := by
      intro R h q' hq'
      rw [List.mem_singleton] at hq'
      rw [hq']
      exact h
    exact ⟨key ((hx.separate hs).imp (fun h => .inr (.inr (.inr h)))), List.pairwise_singleton _ _,
      Or.inr ⟨key (hx.separate hs), List.pairwise_singleton _ _⟩⟩

end Verif
