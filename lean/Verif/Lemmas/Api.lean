import Verif.Spec.Api
import Verif.Lemmas.Select
import Verif.Props.Scatter
import Verif.Props.Again

namespace Verif
open Spec

/-! ### Memory selections -/

theorem last_inside : ∀ {s c dims : List Nat}, s.length = c.length → (∀ n ∈ c, 1 ≤ n) →
    List.Forall₂ (· < ·) (List.zipWith (fun a n => a + n - 1) s c) dims →
    ∀ i a k n : Nat, s[i]? = some a → c[i]? = some k → dims[i]? = some n → a + k ≤ n
  | [], [], _, _, _, _ => by simp
  | s :: ss, c :: cs, dims, h, hp, hf => by
    rw [List.zipWith_cons_cons] at hf
    cases hf with
    | cons h1 h2 =>
      intro i a k n e1 e2 e3
      cases i with
      | zero =>
        simp only [List.getElem?_cons_zero, Option.some.injEq] at e1 e2 e3
        omega
      | succ i =>
        rw [List.getElem?_cons_succ] at e1 e2 e3
        exact last_inside (by simpa using h) (fun n hn => hp n (by simp [hn])) h2 i a k n e1 e2 e3
  | [], _ :: _, _, h, _, _ => by simp at h
  | _ :: _, [], _, h, _, _ => by simp at h

/-- The blocks of a selection inside a memory space. -/
theorem memSel_of {dims : List Nat} {bs : List Blk} {ys : List (List Nat)} (h : Exact dims.length bs ys) (hd : dims ≠ [])
    (hs : ∀ n ∈ dims, n < 2 ^ 31) (hw : ∀ y ∈ ys, List.Forall₂ (· < ·) y dims) (hne : ys ≠ []) : Props.Spec.MemSel dims bs where
  pos := List.length_pos_iff.mpr hd
  ne0 := by
    intro e
    have := h.count_le.2
    rw [e] at this
    exact hne (List.length_eq_zero_iff.mp this.symm)
  small := hs
  rank := fun b hb => ⟨(h.shape b hb).1, (h.shape b hb).2.1⟩
  ne := fun b hb => (h.shape b hb).2.2
  inside := fun b hb => by
    obtain ⟨l1, l2, hp⟩ := h.shape b hb
    have hl : b.start.length = b.count.length := by rw [l1, l2]
    exact last_inside hl hp (hw _ (h.cover b hb _ (inBox_end hl hp)))

theorem bytesAt_length (e : Nat) (mem : Mem) (as : List Nat) : (bytesAt e mem as).length = e * as.length := by
  induction as with
  | nil => rfl
  | cons a as ih =>
    unfold bytesAt at ih ⊢
    rw [List.flatMap_cons, List.length_append, ih]
    simp [Nat.mul_add, Nat.add_comm]

theorem bytesAt_get (e : Nat) (mem : Mem) : ∀ (as : List Nat) (i k : Nat) {p : Nat}, as[i]? = some p → k < e →
    (bytesAt e mem as)[e * i + k]? = some (mem (p + k))
  | [], i, k, p, h, _ => by simp at h
  | a :: as, 0, k, p, h, hk => by
    simp only [List.getElem?_cons_zero, Option.some.injEq] at h
    subst h
    unfold bytesAt
    rw [List.flatMap_cons, Nat.mul_zero, Nat.zero_add, List.getElem?_append_left (by simpa using hk)]
    simp [hk]
  | a :: as, i + 1, k, p, h, hk => by
    rw [List.getElem?_cons_succ] at h
    have ih := bytesAt_get e mem as i k h hk
    unfold bytesAt at ih ⊢
    rw [List.flatMap_cons, List.getElem?_append_right (by simp [Nat.mul_add]; omega)]
    simp only [List.length_map, List.length_range]
    rw [show e * (i + 1) + k - e = e * i + k by rw [Nat.mul_add]; omega, ih]

/-- Lists of elements of equal size. -/
theorem ext_elems {l l' : List Byte} {e n : Nat} (h : l.length = e * n) (h' : l'.length = e * n)
    (hx : ∀ i k, i < n → k < e → l[e * i + k]? = l'[e * i + k]?) : l = l' := by
  apply List.ext_getElem?
  intro j
  by_cases hj : j < e * n
  · have he : 0 < e := by
      rcases Nat.eq_zero_or_pos e with rfl | h
      · simp at hj
      · exact h
    have := hx (j / e) (j % e) (Nat.div_lt_of_lt_mul hj) (Nat.mod_lt _ he)
    rwa [Nat.div_add_mod] at this
  · rw [List.getElem?_eq_none (by omega), List.getElem?_eq_none (by omega)]

theorem fileBytes_eq (mem : Mem) (ubuf e n : Nat) :
    fileBytes mem ubuf (n * e) = bytesAt e mem ((List.range n).map (fun i => ubuf + e * i)) := by
  refine ext_elems (n := n) (e := e) (by simp [fileBytes, Nat.mul_comm]) (by rw [bytesAt_length]; simp) ?_
  intro i k hi hk
  rw [bytesAt_get e mem _ i k (p := ubuf + e * i) (by simp [hi]) hk]
  have hlt : e * i + k < n * e := by
    have : e * (i + 1) ≤ e * n := Nat.mul_le_mul_left e hi
    rw [Nat.mul_add] at this
    rw [Nat.mul_comm n e]
    omega
  unfold fileBytes
  simp [hlt, Nat.add_assoc]

/-- All cells in order. -/
theorem whole_idx {dims : List Nat} {ys : List (List Nat)} (h : RowMajor (fun x => List.Forall₂ (· < ·) x dims) ys) :
    ys.map (rowIdx dims) = List.range ys.length := by
  obtain ⟨s, e, -, xs, hm, hx⟩ := Props.C14_all_partial (fun l => List.range l.length) dims
  rw [rowMajor_unique h hm]
  have hb : s.blocks = [] ∨ s.blocks = [⟨List.replicate dims.length 0, dims⟩] := by
    simp only [selections, Res.ok.injEq] at e
    subst e
    split
    · exact .inl rfl
    · exact .inr rfl
  apply List.ext_getElem
  · simp
  · intro k h1 h2
    rw [List.length_map] at h1
    obtain ⟨i, hi, -, h3⟩ := hx.block h1 1
    rcases hb with hb | hb
    · rw [hb] at hi
      simp at hi
    · simp only [hb] at hi h3
      have h0 : i = 0 := by simpa using hi
      subst h0
      simp only [List.getElem_map, List.getElem_range]
      simpa [dataOffset, rowIdx] using h3

/-- Whether the whole memory space is taken. -/
theorem whole_at {e ubuf : Nat} {dims : List Nat} {ys : List (List Nat)} (h : Chosen dims.length (.all dims) ys) :
    ys.map (fun y => ubuf + e * rowIdx dims y) = (List.range ys.length).map (fun i => ubuf + e * i) := by
  rw [← whole_idx h.2, List.map_map]
  rfl

/-- The dataspace the code takes for the file is the one meant. -/
theorem resolve_eq (d : DInfo) (f : FArg) : f.resolve d = Spec.fileSpace d f := by cases f <;> rfl

/-- The memory space that the code uses, and the addresses. -/
theorem memAt_cases {d : DInfo} {f : FArg} {m : MArg} {ubuf : Nat} {xs : List (List Nat)} {as : List Nat} (h : Xfer d f m ubuf xs as) :
    as.length = xs.length ∧ ((wholeMem (m.resolve d f) = true ∧ as = (List.range xs.length).map (fun i => ubuf + d.esize * i)) ∨
      ∃ dims sel ys, m.resolve d f = some (dims, sel) ∧ (∀ n, sel ≠ .all n) ∧ dims ≠ [] ∧ (∀ n ∈ dims, n < 2 ^ 31) ∧
        Supported dims.length sel ∧ Chosen dims.length sel ys ∧ (∀ y ∈ ys, List.Forall₂ (· < ·) y dims) ∧ ys.length = xs.length ∧
        as = ys.map (fun y => ubuf + d.esize * rowIdx dims y)) := by
  have key : ∀ {dims : List Nat} {sel : H5Sel} {ys : List (List Nat)}, m.resolve d f = some (dims, sel) → SpaceOK dims sel →
      Chosen dims.length sel ys → (∀ y ∈ ys, List.Forall₂ (· < ·) y dims) → ys.length = xs.length →
      as = ys.map (fun y => ubuf + d.esize * rowIdx dims y) → as.length = xs.length ∧
      ((wholeMem (m.resolve d f) = true ∧ as = (List.range xs.length).map (fun i => ubuf + d.esize * i)) ∨
      ∃ dims sel ys, m.resolve d f = some (dims, sel) ∧ (∀ n, sel ≠ .all n) ∧ dims ≠ [] ∧ (∀ n ∈ dims, n < 2 ^ 31) ∧
        Supported dims.length sel ∧ Chosen dims.length sel ys ∧ (∀ y ∈ ys, List.Forall₂ (· < ·) y dims) ∧ ys.length = xs.length ∧
        as = ys.map (fun y => ubuf + d.esize * rowIdx dims y)) := by
    intro dims sel ys h1 h2 h3 h4 h5 h6
    refine ⟨by rw [h6, List.length_map, h5], ?_⟩
    rcases h2 with rfl | ⟨g1, g2, g3, g4⟩
    · refine .inl ⟨by rw [h1]; rfl, ?_⟩
      rw [h6, whole_at h3, h5]
    · exact .inr ⟨dims, sel, ys, h1, g1, g2, g3, g4, h3, h4, h5, h6⟩
  obtain ⟨hc, -, -, -, -, hm, hok⟩ := h
  cases m with
  | block =>
    simp only [MemAt] at hm
    exact ⟨by rw [hm]; simp, .inl ⟨rfl, hm⟩⟩
  | all =>
    simp only [MemAt] at hm hok
    exact key (dims := (Spec.fileSpace d f).1) (sel := (Spec.fileSpace d f).2) (by rw [MArg.resolve, resolve_eq]) hok.2 (by rw [hok.1]; exact hc) hm.1 rfl hm.2
  | space dims sel =>
    simp only [MemAt] at hm hok
    obtain ⟨ys, h1, h2, h3, h4⟩ := hm
    exact key rfl hok h1 h2 h3 h4

theorem elemAddr_rowIdx (ubuf e : Nat) (dims y : List Nat) (k : Nat) :
    Props.Spec.elemAddr ubuf e dims y k = ubuf + e * rowIdx dims y + k := rfl

/-- A write takes the elements at the selected addresses. -/
theorem takeBuf_ok {srt : List (List Nat) → List Nat} (hs : IsSort srt) {d : DInfo} {f : FArg} {m : MArg} {ubuf : Nat}
    {xs : List (List Nat)} {as : List Nat} (h : Xfer d f m ubuf xs as) (hne : xs ≠ []) (mem : Mem) :
    takeBuf srt mem ubuf xs.length d.esize (m.resolve d f) = .ok (bytesAt d.esize mem as) := by
  obtain ⟨hl, ⟨hw, ha⟩ | ⟨dims, sel, ys, h1, h2, h3, h4, h5, h6, h7, h8, h9⟩⟩ := memAt_cases h
  · rw [ha, ← fileBytes_eq]
    unfold wholeMem at hw
    unfold takeBuf
    split <;> rename_i e
    · rfl
    · rfl
    · rename_i hx
      rw [e] at hw
      split at hw
      · rename_i e'; cases e'
      · rename_i e'
        cases e'
        exact (hx _ rfl).elim
      · cases hw
  · obtain ⟨t, t1, t2, t3, -⟩ := select_ok hs h6 h5
    have hyn : ys ≠ [] := by
      intro e
      rw [e] at h8
      exact hne (List.length_eq_zero_iff.mp h8.symm)
    have hms := memSel_of t3 h3 h4 h7 hyn
    obtain ⟨data, g1, g2, g3⟩ := Props.C47_gather_partial hms mem ubuf d.esize xs.length (by rw [t3.count_le.2, h8])
    have hdata : data = bytesAt d.esize mem as := by
      refine ext_elems (e := d.esize) (n := xs.length) (by rw [g2, Nat.mul_comm]) (by rw [bytesAt_length, hl]) ?_
      intro i k hi hk
      have hi' : i < ys.length := by omega
      obtain ⟨j, hj, hin, he⟩ := t3.block hi' d.esize
      have := g3 j _ _ k (List.getElem?_eq_getElem hj) hin hk
      rw [he] at this
      rw [this, bytesAt_get d.esize mem as i k (p := ubuf + d.esize * rowIdx dims ys[i]) (by
        rw [h9, List.getElem?_map, List.getElem?_eq_getElem hi']
        rfl) hk, elemAddr_rowIdx]
    rw [h1, ← hdata]
    unfold takeBuf
    split
    · rename_i e; cases e
    · rename_i e
      cases e
      exact (h2 _ rfl).elim
    · rename_i e
      cases e
      rw [t1, Res.ok_bind, g1, Res.ok_bind, t2]
      rfl

/-- A read puts the elements at the selected addresses. -/
theorem putBuf_ok {srt : List (List Nat) → List Nat} (hs : IsSort srt) {d : DInfo} {f : FArg} {m : MArg} {ubuf : Nat}
    {xs : List (List Nat)} {as : List Nat} (h : Xfer d f m ubuf xs as) (hne : xs ≠ []) (xbuf : Nat) (mem : Mem) :
    ∃ mem', putBuf srt xbuf ubuf xs.length d.esize (m.resolve d f) mem = .ok mem' ∧
      (∀ i p j, as[i]? = some p → j < d.esize →
        mem' (p + j) = mem ((if wholeMem (m.resolve d f) then ubuf else xbuf) + d.esize * i + j)) ∧
      ∀ q, (∀ p ∈ as, ¬ (p ≤ q ∧ q < p + d.esize)) → mem' q = mem q := by
  obtain ⟨hl, ⟨hw, ha⟩ | ⟨dims, sel, ys, h1, h2, h3, h4, h5, h6, h7, h8, h9⟩⟩ := memAt_cases h
  · refine ⟨mem, ?_, ?_, fun _ _ => rfl⟩
    · unfold wholeMem at hw
      unfold putBuf
      split <;> rename_i e
      · rfl
      · rfl
      · rename_i hx
        rw [e] at hw
        split at hw
        · rename_i e'; cases e'
        · rename_i e'
          cases e'
          exact (hx _ rfl).elim
        · cases hw
    · intro i p j hi hj
      rw [hw, if_pos rfl]
      rw [ha, List.getElem?_map, Option.map_eq_some_iff] at hi
      obtain ⟨i', hi, rfl⟩ := hi
      have hii : i' = i := by
        have := (List.getElem?_eq_some_iff.mp hi).2
        simpa using this.symm
      rw [hii]
  · obtain ⟨t, t1, t2, t3, t4⟩ := select_ok hs h6 h5
    have hyn : ys ≠ [] := by
      intro e
      rw [e] at h8
      exact hne (List.length_eq_zero_iff.mp h8.symm)
    have hms := memSel_of t3 h3 h4 h7 hyn
    obtain ⟨mem', g1, g2, g3⟩ := Props.C47_scatter_partial hms (t3.noCommon t4) mem id (fileBytes mem xbuf (xs.length * d.esize)) ubuf
      xs.length d.esize d.esize (by rw [t3.count_le.2, h8]) (Nat.le_refl _) (by simp [fileBytes])
    have hwm : wholeMem (m.resolve d f) = false := by
      rw [h1]
      unfold wholeMem
      split
      · rename_i e; cases e
      · rename_i e
        cases e
        exact (h2 _ rfl).elim
      · rfl
    refine ⟨mem', ?_, ?_, ?_⟩
    · rw [h1]
      unfold putBuf
      split
      · rename_i e; cases e
      · rename_i e
        cases e
        exact (h2 _ rfl).elim
      · rename_i e
        cases e
        rw [t1, Res.ok_bind, g1, Res.ok_bind, t2]
        rfl
    · intro i p j hi hj
      rw [hwm]
      rw [h9, List.getElem?_map, Option.map_eq_some_iff] at hi
      obtain ⟨y, hy, rfl⟩ := hi
      obtain ⟨hi', rfl⟩ := List.getElem?_eq_some_iff.mp hy
      obtain ⟨b, hb, hin, he⟩ := t3.block hi' d.esize
      have := g2 b _ _ j (List.getElem?_eq_getElem hb) hin hj
      rw [he, elemAddr_rowIdx] at this
      have hlt : d.esize * i + j < xs.length * d.esize := by
        have : d.esize * (i + 1) ≤ d.esize * xs.length := Nat.mul_le_mul_left _ (by omega)
        rw [Nat.mul_add] at this
        rw [Nat.mul_comm xs.length]
        omega
      unfold fileBytes at this
      rw [id, List.getElem?_map, List.getElem?_range hlt] at this
      simp only [Option.map_some, Option.some.injEq] at this
      rw [← this, ← Nat.add_assoc]
      rfl
    · intro q hq
      refine g3 q ?_
      intro b hb y hy k hk e
      have hym := t3.cover b hb y hy
      refine hq (ubuf + d.esize * rowIdx dims y) (by rw [h9]; exact List.mem_map_of_mem hym) ?_
      rw [e, elemAddr_rowIdx]
      omega

end Verif
