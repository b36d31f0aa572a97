import Verif.Model.Scatter
import Verif.Lemmas.Order
import Verif.Lemmas.ReadLog
import Verif.Props.FileEx

/-
C47: memory selections.
-/

namespace Verif.Props

open Spec (InBlk idxIn dataOffset inBox)

/-- A selection of blocks in a memory space of shape `dims`: no block is empty or leaves the space. -/
structure Spec.MemSel (dims : List Nat) (bs : List Blk) : Prop where
  pos : 1 ≤ dims.length
  ne0 : bs ≠ []
  small : ∀ n ∈ dims, n < 2 ^ 31
  rank : ∀ b ∈ bs, b.start.length = dims.length ∧ b.count.length = dims.length
  ne : ∀ b ∈ bs, ∀ c ∈ b.count, 1 ≤ c
  inside : ∀ b ∈ bs, ∀ i s c n : Nat, b.start[i]? = some s → b.count[i]? = some c → dims[i]? = some n → s + c ≤ n

/-- Address of byte `k` of the element at position `x` of a memory space, stored row-major at `ubuf`. -/
def Spec.elemAddr (ubuf e : Nat) (dims x : List Nat) (k : Nat) : Nat :=
  ubuf + e * idxIn ⟨List.replicate dims.length 0, dims⟩ x + k

theorem subarrayOK_of : ∀ {ns cs ss : List Nat}, ss.length = ns.length → cs.length = ns.length → (∀ c ∈ cs, 1 ≤ c) →
    (∀ i s c n : Nat, ss[i]? = some s → cs[i]? = some c → ns[i]? = some n → s + c ≤ n) → subarrayOK ns cs ss = true
  | [], [], [], _, _, _, _ => rfl
  | n :: ns, c :: cs, s :: ss, h1, h2, h3, h4 => by
    have ih := subarrayOK_of (ns := ns) (cs := cs) (ss := ss) (by simpa using h1) (by simpa using h2)
      (fun c hc => h3 c (by simp [hc])) (fun i s c n a b d => h4 (i + 1) s c n (by simpa using a) (by simpa using b) (by simpa using d))
    simp only [subarrayOK, Bool.and_eq_true, decide_eq_true_eq]
    exact ⟨⟨h3 c (by simp), h4 0 s c n rfl rfl rfl⟩, ih⟩
  | [], _ :: _, _, _, h, _, _ => by simp at h
  | [], [], _ :: _, h, _, _, _ => by simp at h
  | _ :: _, [], _, _, h, _, _ => by simp at h
  | _ :: _, _ :: _, [], h, _, _, _ => by simp at h

/-- Byte offsets of cells. -/
def cellOffs (dims : List Nat) (e : Nat) (xs : List (List Nat)) : List Nat :=
  xs.flatMap (fun x => (List.range e).map (fun k => e * lin dims x + k))

theorem memOffs_ok {dims : List Nat} {bs : List Blk} (h : Spec.MemSel dims bs) (e : Nat) :
    memOffs dims e bs = .ok (cellOffs dims e (cellsB bs)) := by
  unfold memOffs
  rw [if_neg, if_neg]
  · congr 1
    unfold cellOffs cellsB cells
    rw [List.flatMap_assoc]
    apply List.flatMap_congr
    intro b _
    rw [List.flatMap_map]
  · rintro (h1 | h1 | h1)
    · have := h.pos
      rw [h1] at this
      simp at this
    · exact h.ne0 h1
    · refine h1 (List.all_eq_true.mpr fun b hb => ?_)
      obtain ⟨r1, r2⟩ := h.rank b hb
      exact subarrayOK_of r1 r2 (h.ne b hb) (h.inside b hb)
  · rw [Decidable.not_not, List.all_eq_true]
    intro n hn
    exact decide_eq_true (h.small n hn)

theorem cellOffs_length (dims : List Nat) (e : Nat) (xs : List (List Nat)) : (cellOffs dims e xs).length = e * xs.length := by
  induction xs with
  | nil => simp [cellOffs]
  | cons x xs ih =>
    unfold cellOffs at ih ⊢
    rw [List.flatMap_cons, List.length_append, ih]
    simp [Nat.mul_add, Nat.add_comm]

theorem cellOffs_get (dims : List Nat) (e : Nat) : ∀ (xs : List (List Nat)) (j k : Nat) {x : List Nat}, xs[j]? = some x → k < e →
    (cellOffs dims e xs)[e * j + k]? = some (e * lin dims x + k)
  | [], j, k, x, h, _ => by simp at h
  | y :: xs, 0, k, x, h, hk => by
    simp only [List.getElem?_cons_zero, Option.some.injEq] at h
    subst h
    unfold cellOffs
    rw [List.flatMap_cons, Nat.mul_zero, Nat.zero_add, List.getElem?_append_left (by simpa using hk)]
    simp [hk]
  | y :: xs, j + 1, k, x, h, hk => by
    rw [List.getElem?_cons_succ] at h
    have ih := cellOffs_get dims e xs j k h hk
    unfold cellOffs at ih ⊢
    rw [List.flatMap_cons, List.getElem?_append_right (by simp [Nat.mul_add]; omega)]
    simp only [List.length_map, List.length_range]
    have : e * (j + 1) + k - e = e * j + k := by
      rw [Nat.mul_add]
      omega
    rw [this, ih]

/-- Where a cell of a block comes in the order of the selection. -/
theorem cellsB_get {n : Nat} : ∀ {bs : List Blk} (_ : ∀ b ∈ bs, b.start.length = n ∧ b.count.length = n) (i : Nat) {b : Blk}
    {x : List Nat}, bs[i]? = some b → InBlk b x → (cellsB bs)[((bs.take i).map Blk.size).sum + idxIn b x]? = some x
  | [], _, i, b, x, h, _ => by simp at h
  | a :: bs, hr, 0, b, x, h, hx => by
    simp only [List.getElem?_cons_zero, Option.some.injEq] at h
    subst h
    have hl : a.start.length = a.count.length := by
      have := hr a (by simp)
      rw [this.1, this.2]
    have hm := (mem_cells hl).mpr hx
    obtain ⟨k, hk, e⟩ := List.getElem_of_mem hm
    have hk' := idxIn_cells hl k hk
    rw [e] at hk'
    have : cellsB (a :: bs) = cells a.start a.count ++ cellsB bs := List.flatMap_cons
    have ha : (⟨a.start, a.count⟩ : Blk) = a := rfl
    rw [ha] at hk'
    rw [this, List.take_zero, List.map_nil, List.sum_nil, Nat.zero_add, hk', List.getElem?_append_left hk,
      List.getElem?_eq_getElem hk, e]
  | a :: bs, hr, i + 1, b, x, h, hx => by
    rw [List.getElem?_cons_succ] at h
    have ih := cellsB_get (fun c hc => hr c (by simp [hc])) i h hx
    have hl : a.start.length = a.count.length := by
      have := hr a (by simp)
      rw [this.1, this.2]
    have : cellsB (a :: bs) = cells a.start a.count ++ cellsB bs := List.flatMap_cons
    have hsz : (cells a.start a.count).length = a.size := cells_length hl
    rw [this, List.take_succ_cons, List.map_cons, List.sum_cons, List.getElem?_append_right (by omega), hsz]
    have e : a.size + ((bs.take i).map Blk.size).sum + idxIn b x - a.size = ((bs.take i).map Blk.size).sum + idxIn b x := by omega
    rw [e, ih]

theorem inBox_dims : ∀ {ss cs ns x : List Nat}, ss.length = ns.length → cs.length = ns.length →
    (∀ i s c n : Nat, ss[i]? = some s → cs[i]? = some c → ns[i]? = some n → s + c ≤ n) → inBox ss cs x = true →
    inBox (List.replicate ns.length 0) ns x = true
  | [], [], [], x, _, _, _, h => h
  | s :: ss, c :: cs, n :: ns, [], _, _, _, h => by simp [inBox] at h
  | s :: ss, c :: cs, n :: ns, x :: xs, h1, h2, h3, h => by
    simp only [inBox, Bool.and_eq_true, decide_eq_true_eq] at h
    have ih := inBox_dims (ss := ss) (cs := cs) (ns := ns) (x := xs) (by simpa using h1) (by simpa using h2)
      (fun i s c n a b d => h3 (i + 1) s c n (by simpa using a) (by simpa using b) (by simpa using d)) h.2
    have := h3 0 s c n rfl rfl rfl
    simp only [List.length_cons, List.replicate_succ, inBox, Bool.and_eq_true, decide_eq_true_eq]
    exact ⟨⟨by omega, by omega⟩, ih⟩
  | [], _ :: _, [], _, _, h, _, _ => by simp at h
  | _ :: _, _, [], _, h, _, _, _ => by simp at h
  | [], _, _ :: _, _, h, _, _, _ => by simp at h
  | _ :: _, [], _ :: _, _, _, h, _, _ => by simp at h

theorem subs_zero : ∀ (l : List Nat) (k : Nat), l.length = k → subs l (List.replicate k 0) = l
  | [], k, _ => by cases k <;> rfl
  | a :: l, 0, h => by simp at h
  | a :: l, k + 1, h => by
    have := subs_zero l k (by simpa using h)
    rw [List.replicate_succ]
    simp only [subs, List.zipWith_cons_cons] at this ⊢
    rw [this]
    rfl

theorem elemAddr_eq {dims : List Nat} {bs : List Blk} (h : Spec.MemSel dims bs) {b : Blk} {x : List Nat} (hb : b ∈ bs)
    (hx : InBlk b x) (ubuf e k : Nat) : Spec.elemAddr ubuf e dims x k = ubuf + (e * lin dims x + k) ∧
      inBox (List.replicate dims.length 0) dims x = true := by
  have hin := inBox_dims (h.rank b hb).1 (h.rank b hb).2 (h.inside b hb) hx
  have he : idxIn ⟨List.replicate dims.length 0, dims⟩ x = lin dims (subs x (List.replicate dims.length 0)) := idxIn_eq hin
  unfold Spec.elemAddr
  rw [he, subs_zero _ _ (inBox_length hin).2.symm]
  exact ⟨by omega, hin⟩

/-- **C47, write (partial).** A write from a memory selection takes exactly the selected elements, in the order of the blocks
and of the cells in a block, for every shape of the memory space, every list of blocks and every element size.  Missing:
memory and file selection with different numbers of elements, see `C47_size_violated`. -/
theorem C47_gather_partial {dims : List Nat} {bs : List Blk} (h : Spec.MemSel dims bs) (mem : Mem) (ubuf e n : Nat)
    (hn : n = (bs.map Blk.size).sum) :
    ∃ data, gather mem ubuf n e dims bs = .ok data ∧ data.length = n * e ∧
      ∀ (i : Nat) (b : Blk) (x : List Nat) (k : Nat), bs[i]? = some b → InBlk b x → k < e →
        data[dataOffset e bs i + e * idxIn b x + k]? = some (mem (Spec.elemAddr ubuf e dims x k)) := by
  have hlen : ((cellOffs dims e (cellsB bs)).map (fun o => mem (ubuf + o))).length = n * e := by
    rw [List.length_map, cellOffs_length, cellsB_length h.rank, hn, Nat.mul_comm]
  refine ⟨(cellOffs dims e (cellsB bs)).map (fun o => mem (ubuf + o)), ?_, hlen, ?_⟩
  · unfold gather mpiPack
    rw [memOffs_ok h, Res.ok_bind, if_neg (by rw [List.length_map] at hlen; omega), Res.ok_bind, if_pos hlen]
    rfl
  · intro i b x k hb hx hk
    have hc := cellsB_get h.rank i hb hx
    have hg := cellOffs_get dims e (cellsB bs) _ k hc hk
    rw [(elemAddr_eq h (List.mem_of_getElem? hb) hx ubuf e k).1, List.getElem?_map]
    unfold dataOffset
    rw [← Nat.mul_add, hg]
    rfl

theorem storeAll_other (mem : Mem) (a : Nat) : ∀ (ps : List (Nat × Byte)), (∀ p ∈ ps, p.1 ≠ a) → storeAll mem ps a = mem a := by
  intro ps
  induction ps generalizing mem with
  | nil => exact fun _ => rfl
  | cons p ps ih =>
    intro h
    rw [storeAll, ih _ (fun q hq => h q (by simp [hq]))]
    unfold upd
    rw [if_neg (fun e => h p (by simp) e.symm)]

theorem storeAll_get (mem : Mem) : ∀ (ps : List (Nat × Byte)), (ps.map Prod.fst).Nodup → ∀ p ∈ ps, storeAll mem ps p.1 = p.2 := by
  intro ps
  induction ps generalizing mem with
  | nil => exact fun _ p hp => absurd hp (by simp)
  | cons q ps ih =>
    intro hn p hp
    rw [List.map_cons, List.nodup_cons] at hn
    rw [storeAll]
    rcases List.mem_cons.mp hp with rfl | hp
    · rw [storeAll_other]
      · unfold upd
        rw [if_pos rfl]
      · intro r hr e
        exact hn.1 (by rw [← e]; exact List.mem_map_of_mem hr)
    · exact ih _ hn.2 p hp

theorem mem_cellOffs {dims : List Nat} {e o : Nat} {xs : List (List Nat)} :
    o ∈ cellOffs dims e xs ↔ ∃ x ∈ xs, ∃ k < e, o = e * lin dims x + k := by
  unfold cellOffs
  simp only [List.mem_flatMap, List.mem_map, List.mem_range]
  constructor
  · rintro ⟨x, hx, k, hk, rfl⟩
    exact ⟨x, hx, k, hk, rfl⟩
  · rintro ⟨x, hx, k, hk, rfl⟩
    exact ⟨x, hx, k, hk, rfl⟩

theorem mul_add_inj {e a b k l : Nat} (hk : k < e) (hl : l < e) (h : e * a + k = e * b + l) : a = b ∧ k = l := by
  have h1 := congrArg (· / e) h
  have h2 := congrArg (· % e) h
  simp only [Nat.mul_add_div (Nat.zero_lt_of_lt hk), Nat.mul_add_mod, Nat.div_eq_of_lt hk, Nat.div_eq_of_lt hl,
    Nat.mod_eq_of_lt hk, Nat.mod_eq_of_lt hl, Nat.add_zero] at h1 h2
  exact ⟨h1, h2⟩

theorem cellOffs_nodup {dims : List Nat} (e : Nat) : ∀ {xs : List (List Nat)}, xs.Nodup →
    (∀ x ∈ xs, inBox (List.replicate dims.length 0) dims x = true) → (cellOffs dims e xs).Nodup
  | [], _, _ => List.nodup_nil
  | x :: xs, hn, hin => by
    rw [List.nodup_cons] at hn
    have ih := cellOffs_nodup e hn.2 (fun y hy => hin y (by simp [hy]))
    have he : cellOffs dims e (x :: xs) = (List.range e).map (fun k => e * lin dims x + k) ++ cellOffs dims e xs := List.flatMap_cons
    rw [he, List.nodup_append]
    refine ⟨?_, ih, ?_⟩
    · exact List.Nodup.map_on (fun a _ b _ h => by omega) List.nodup_range
    · intro a ha b hb hab
      obtain ⟨k, hk, rfl⟩ := List.mem_map.mp ha
      obtain ⟨y, hy, l, hl, rfl⟩ := mem_cellOffs.mp hb
      have hk' := List.mem_range.mp hk
      have h1 := (mul_add_inj hk' hl hab).1
      have hx := hin x (by simp)
      have hy' := hin y (by simp [hy])
      have : x = y := by
        apply lin_inj hx hy'
        rw [subs_zero _ _ (inBox_length hx).2.symm, subs_zero _ _ (inBox_length hy').2.symm, h1]
      rw [this] at hn
      exact hn.1 hy

/-- No cell is selected twice. -/
def Spec.Once (bs : List Blk) : Prop := bs.Pairwise (fun a b => ∀ x, ¬ (InBlk a x ∧ InBlk b x))

theorem cellsB_nodup {n : Nat} : ∀ {bs : List Blk}, (∀ b ∈ bs, b.start.length = n ∧ b.count.length = n) → Spec.Once bs →
    (cellsB bs).Nodup
  | [], _, _ => List.nodup_nil
  | b :: bs, hr, ho => by
    unfold Spec.Once at ho
    rw [List.pairwise_cons] at ho
    have he : cellsB (b :: bs) = cells b.start b.count ++ cellsB bs := List.flatMap_cons
    have hb := hr b (by simp)
    have hl : b.start.length = b.count.length := by rw [hb.1, hb.2]
    have hrs : ∀ c ∈ bs, c.start.length = n ∧ c.count.length = n := fun c hc => hr c (by simp [hc])
    rw [he, List.nodup_append]
    refine ⟨cells_nodup hl, cellsB_nodup hrs ho.2, ?_⟩
    intro x hx y hy e
    subst e
    obtain ⟨c, hc, hxc⟩ := (mem_cellsB hrs).mp hy
    exact ho.1 c hc x ⟨(mem_cells hl).mp hx, hxc⟩

/-- **C47, read (partial).** A read into a memory selection of disjoint blocks stores element after element at the selected
positions and leaves every other byte of memory as it was.  Missing: a memory type wider than the dataset type, see
`C47_convert_violated`. -/
theorem C47_scatter_partial {dims : List Nat} {bs : List Blk} (h : Spec.MemSel dims bs) (ho : Spec.Once bs) (mem : Mem)
    (conv : List Byte → List Byte) (data : List Byte) (ubuf n des mes : Nat) (hn : n = (bs.map Blk.size).sum) (hw : mes ≤ des)
    (hl : (conv data).length = n * mes) :
    ∃ mem', scatter conv data n des mes ubuf dims bs mem = .ok mem' ∧
      (∀ (i : Nat) (b : Blk) (x : List Nat) (k : Nat), bs[i]? = some b → InBlk b x → k < mes →
        (conv data)[dataOffset mes bs i + mes * idxIn b x + k]? = some (mem' (Spec.elemAddr ubuf mes dims x k))) ∧
      ∀ a, (∀ b ∈ bs, ∀ x, InBlk b x → ∀ k < mes, a ≠ Spec.elemAddr ubuf mes dims x k) → mem' a = mem a := by
  have hnd := cellsB_nodup h.rank ho
  have hin : ∀ x ∈ cellsB bs, inBox (List.replicate dims.length 0) dims x = true := by
    intro x hx
    obtain ⟨b, hb, hxb⟩ := (mem_cellsB h.rank).mp hx
    exact (elemAddr_eq h hb hxb 0 0 0).2
  have hoffs := cellOffs_nodup mes hnd hin
  have hlen : (cellOffs dims mes (cellsB bs)).length = n * mes := by
    rw [cellOffs_length, cellsB_length h.rank, hn, Nat.mul_comm]
  obtain ⟨ps, hps⟩ : ∃ ps, ps = ((cellOffs dims mes (cellsB bs)).map (fun o => ubuf + o)).zip (conv data) := ⟨_, rfl⟩
  have hfst : ps.map Prod.fst = (cellOffs dims mes (cellsB bs)).map (fun o => ubuf + o) := by
    rw [hps, List.map_fst_zip]
    rw [List.length_map, hlen, hl]
  have hfn : (ps.map Prod.fst).Nodup := by
    rw [hfst]
    exact List.Nodup.map_on (fun a _ b _ e => by omega) hoffs
  refine ⟨storeAll mem ps, ?_, ?_, ?_⟩
  · unfold scatter mpiUnpack
    rw [memOffs_ok h, Res.ok_bind, if_neg, if_pos hoffs, hps]
    rw [hlen]
    exact Nat.not_lt.mpr (Nat.mul_le_mul_left _ hw)
  · intro i b x k hb hx hk
    have hc := cellsB_get h.rank i hb hx
    have hg := cellOffs_get dims mes (cellsB bs) _ k hc hk
    have hidx : mes * (((bs.take i).map Blk.size).sum + idxIn b x) + k < (conv data).length := by
      rw [hl, ← hlen]
      exact (List.getElem?_eq_some_iff.mp hg).1
    have hd : dataOffset mes bs i + mes * idxIn b x + k = mes * (((bs.take i).map Blk.size).sum + idxIn b x) + k := by
      unfold dataOffset
      rw [Nat.mul_add]
    rw [hd, List.getElem?_eq_getElem hidx, (elemAddr_eq h (List.mem_of_getElem? hb) hx ubuf mes k).1]
    congr 1
    have hmem : (ubuf + (mes * lin dims x + k), (conv data)[mes * (((bs.take i).map Blk.size).sum + idxIn b x) + k]) ∈ ps := by
      rw [hps]
      apply List.mem_of_getElem? (i := mes * (((bs.take i).map Blk.size).sum + idxIn b x) + k)
      rw [List.getElem?_zip_eq_some]
      refine ⟨?_, List.getElem?_eq_getElem hidx⟩
      rw [List.getElem?_map, hg]
      rfl
    exact (storeAll_get mem ps hfn _ hmem).symm
  · intro a ha
    apply storeAll_other
    intro p hp e
    have : p.1 ∈ ps.map Prod.fst := List.mem_map_of_mem hp
    rw [hfst, List.mem_map] at this
    obtain ⟨o, ho', e'⟩ := this
    obtain ⟨x, hx, k, hk, rfl⟩ := mem_cellOffs.mp ho'
    obtain ⟨b, hb, hxb⟩ := (mem_cellsB h.rank).mp hx
    refine ha b hb x hxb k hk ?_
    rw [(elemAddr_eq h hb hxb ubuf mes k).1]
    omega

/-- **C47, round trip (partial).** What a read stored in a memory selection is what a write from the same selection takes. -/
theorem C47_roundtrip_partial {dims : List Nat} {bs : List Blk} (h : Spec.MemSel dims bs) (ho : Spec.Once bs) (mem : Mem)
    (data : List Byte) (ubuf n e : Nat) (hn : n = (bs.map Blk.size).sum) (hl : data.length = n * e) :
    ∃ mem', scatter id data n e e ubuf dims bs mem = .ok mem' ∧ gather mem' ubuf n e dims bs = .ok data := by
  have hnd := cellsB_nodup h.rank ho
  have hin : ∀ x ∈ cellsB bs, inBox (List.replicate dims.length 0) dims x = true := by
    intro x hx
    obtain ⟨b, hb, hxb⟩ := (mem_cellsB h.rank).mp hx
    exact (elemAddr_eq h hb hxb 0 0 0).2
  have hoffs := cellOffs_nodup e hnd hin
  have hlen : (cellOffs dims e (cellsB bs)).length = n * e := by
    rw [cellOffs_length, cellsB_length h.rank, hn, Nat.mul_comm]
  refine ⟨storeAll mem (((cellOffs dims e (cellsB bs)).map (fun o => ubuf + o)).zip data), ?_, ?_⟩
  · unfold scatter mpiUnpack
    rw [memOffs_ok h, Res.ok_bind, if_neg (by rw [hlen]; omega), if_pos hoffs]
    rfl
  · have hdata : (cellOffs dims e (cellsB bs)).map (fun o => storeAll mem
        (((cellOffs dims e (cellsB bs)).map (fun o => ubuf + o)).zip data) (ubuf + o)) = data := by
      have hfst : ((((cellOffs dims e (cellsB bs)).map (fun o => ubuf + o)).zip data).map Prod.fst).Nodup := by
        rw [List.map_fst_zip (by rw [List.length_map, hlen, hl])]
        exact List.Nodup.map_on (fun a _ b _ e => by omega) hoffs
      apply List.ext_getElem
      · rw [List.length_map, hlen, hl]
      · intro i h1 h2
        rw [List.getElem_map]
        have hi : i < (cellOffs dims e (cellsB bs)).length := by simpa using h1
        have hmem : (ubuf + (cellOffs dims e (cellsB bs))[i], data[i]) ∈
            ((cellOffs dims e (cellsB bs)).map (fun o => ubuf + o)).zip data := by
          apply List.mem_of_getElem? (i := i)
          rw [List.getElem?_zip_eq_some]
          refine ⟨?_, List.getElem?_eq_getElem h2⟩
          rw [List.getElem?_map, List.getElem?_eq_getElem hi]
          rfl
        exact storeAll_get mem _ hfst _ hmem
    unfold gather mpiPack
    rw [memOffs_ok h, Res.ok_bind, if_neg (by rw [hlen]; omega), Res.ok_bind, hdata, if_pos hl]
    rfl

/-- **C47 is violated: conversion.** Reading into a memory selection with a memory type wider than the type of the dataset fails,
for every selection: the size of the buffer is computed with the wrong element size. -/
theorem C47_convert_violated {dims : List Nat} {bs : List Blk} (h : Spec.MemSel dims bs) (mem : Mem)
    (conv : List Byte → List Byte) (data : List Byte) (ubuf n des mes : Nat) (hn : n = (bs.map Blk.size).sum) (hw : des < mes)
    (hpos : 0 < n) : scatter conv data n des mes ubuf dims bs mem = .err := by
  have hlen : (cellOffs dims mes (cellsB bs)).length = n * mes := by
    rw [cellOffs_length, cellsB_length h.rank, hn, Nat.mul_comm]
  unfold scatter mpiUnpack
  rw [memOffs_ok h, Res.ok_bind, if_pos]
  rw [hlen]
  exact Nat.mul_lt_mul_of_pos_left hw hpos

/-- **C47 is violated: sizes.** A memory selection smaller than the file selection is not refused: the rest of the data is
uninitialised memory. -/
theorem C47_size_violated {dims : List Nat} {bs : List Blk} (h : Spec.MemSel dims bs) (mem : Mem) (ubuf e n : Nat) (he : 0 < e)
    (hn : (bs.map Blk.size).sum < n) : gather mem ubuf n e dims bs = .ub := by
  have hlen : (cellOffs dims e (cellsB bs)).length < n * e := by
    rw [cellOffs_length, cellsB_length h.rank, Nat.mul_comm]
    exact Nat.mul_lt_mul_of_pos_right hn he
  unfold gather mpiPack
  rw [memOffs_ok h, Res.ok_bind, if_neg (by omega), Res.ok_bind, if_neg]
  rw [List.length_map]
  omega

/-- **C47: sizes.** A memory selection larger than the file selection is refused. -/
theorem C47_larger {dims : List Nat} {bs : List Blk} (h : Spec.MemSel dims bs) (mem : Mem) (ubuf e n : Nat) (he : 0 < e)
    (hn : n < (bs.map Blk.size).sum) : gather mem ubuf n e dims bs = .err := by
  have hlen : n * e < (cellOffs dims e (cellsB bs)).length := by
    rw [cellOffs_length, cellsB_length h.rank, Nat.mul_comm]
    exact Nat.mul_lt_mul_of_pos_left hn he
  unfold gather mpiPack
  rw [memOffs_ok h, Res.ok_bind, if_pos hlen]
  rfl

/-! ### Concrete cases -/

def msBlocks : List Blk := [⟨[0, 1], [2, 2]⟩, ⟨[2, 0], [1, 3]⟩]

theorem ms_sel : Spec.MemSel [3, 4] msBlocks := by
  refine ⟨by decide, by decide, by decide, by decide, by decide, ?_⟩
  intro b hb i s c n h1 h2 h3
  have hi : i < 2 := by
    have := (List.getElem?_eq_some_iff.mp h3).1
    simpa using this
  simp only [msBlocks, List.mem_cons, List.not_mem_nil, or_false] at hb
  have : i = 0 ∨ i = 1 := by omega
  rcases hb with rfl | rfl <;> rcases this with rfl | rfl <;> simp at h1 h2 h3 <;> omega

theorem ms_once : Spec.Once msBlocks := by
  unfold Spec.Once msBlocks
  rw [List.pairwise_cons]
  refine ⟨?_, by simp⟩
  intro b hb x
  simp only [List.mem_singleton] at hb
  subst hb
  rintro ⟨h1, h2⟩
  unfold InBlk at h1 h2
  match x, h1, h2 with
  | [a, c], h1, h2 =>
    simp [inBox] at h1 h2
    omega
  | [], h1, _ => simp [inBox] at h1
  | [_], h1, _ => simp [inBox] at h1
  | _ :: _ :: _ :: _, h1, _ => simp [inBox] at h1

example : gather (fun a => UInt8.ofNat a) 100 7 2 [3, 4] msBlocks =
    .ok [102, 103, 104, 105, 110, 111, 112, 113, 116, 117, 118, 119, 120, 121] := by decide +kernel

end Verif.Props
