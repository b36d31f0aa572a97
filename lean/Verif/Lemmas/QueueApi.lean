import Verif.Spec.QueueApi
import Verif.Lemmas.ApiCalls

namespace Verif
open Spec

theorem resolve_esize (d : DInfo) (e : Nat) (f : FArg) (m : MArg) : m.resolve { d with esize := e } f = m.resolve d f := by
  cases m <;> cases f <;> rfl

theorem fileSpace_esize (d : DInfo) (e : Nat) (f : FArg) : Spec.fileSpace { d with esize := e } f = Spec.fileSpace d f := by
  cases f <;> rfl

theorem call_size (k : QCall) : k.c.size k.d.esize = k.size := rfl

theorem fileBytes_get {mem : Mem} {a n i : Nat} (h : i < n) : (fileBytes mem a n)[i]? = some (mem (a + i)) := by
  unfold fileBytes
  simp [h]

theorem flatMap_get {n e : Nat} {g : Nat → List Byte} (hg : ∀ i < n, (g i).length = e) :
    ((List.range n).flatMap g).length = n * e ∧ ∀ i j, i < n → j < e → ((List.range n).flatMap g)[e * i + j]? = (g i)[j]? := by
  induction n with
  | zero => simp
  | succ n ih =>
    obtain ⟨h1, h2⟩ := ih (fun i hi => hg i (by omega))
    have e0 : (List.range (n + 1)).flatMap g = (List.range n).flatMap g ++ g n := by
      rw [List.range_succ, List.flatMap_append]
      simp
    rw [e0]
    refine ⟨by rw [List.length_append, h1, hg n (by omega), Nat.succ_mul], ?_⟩
    intro i j hi hj
    by_cases hin : i < n
    · have : e * i + j < n * e := by
        have : e * (i + 1) ≤ e * n := Nat.mul_le_mul_left e hin
        rw [Nat.mul_add] at this
        rw [Nat.mul_comm n e]
        omega
      rw [List.getElem?_append_left (by omega)]
      exact h2 i j hin hj
    · have hi : i = n := by omega
      subst hi
      rw [List.getElem?_append_right (by rw [h1, Nat.mul_comm]; omega), h1, Nat.mul_comm i e]
      congr 1
      omega

theorem writeAt_hit {mem : Mem} {a i : Nat} {l : List Byte} {b : Byte} (h : l[i]? = some b) : writeAt mem a l (a + i) = b := by
  unfold writeAt
  rw [if_pos (by omega), Nat.add_sub_cancel_left, h]
  rfl

theorem writeAt_miss {mem : Mem} {a z : Nat} {l : List Byte} (h : ¬ (a ≤ z ∧ z < a + l.length)) : writeAt mem a l z = mem z := by
  unfold writeAt
  split
  · rw [List.getElem?_eq_none (by omega)]
    rfl
  · rfl

/-- The internal buffer after the conversion. -/
theorem convert_ok {p : Pend} {k : QCall} (h1 : p.conv = k.c.conv) (h2 : p.q.d.esize = k.d.esize) (h3 : p.n = k.xs.length) (hk : k.OK) (mem : Mem) :
    (∀ i j, i < p.n → j < k.size → (fileBytes (p.convert mem) p.q.xbuf (p.n * k.size))[k.size * i + j]? =
      (k.value (fileBytes mem (p.q.xbuf + k.d.esize * i) k.d.esize))[j]?) ∧
    ∀ z, ¬ (p.q.xbuf ≤ z ∧ z < p.q.xbuf + k.xs.length * max k.size k.d.esize) → p.convert mem z = mem z := by
  have hlt : ∀ {e i j : Nat}, i < p.n → j < e → e * i + j < p.n * e := by
    intro e i j hi hj
    have : e * (i + 1) ≤ e * p.n := Nat.mul_le_mul_left e hi
    rw [Nat.mul_add] at this
    rw [Nat.mul_comm p.n e]
    omega
  cases hc : k.c.conv with
  | none =>
    have e1 : p.convert mem = mem := by
      unfold Pend.convert
      rw [h1, hc]
    have e2 : k.size = k.d.esize := by
      unfold QCall.size
      rw [hc]
    have e3 : ∀ l, k.value l = l := by
      intro l
      unfold QCall.value
      rw [hc]
    rw [e1, e2]
    refine ⟨?_, fun _ _ => rfl⟩
    intro i j hi hj
    rw [e3, fileBytes_get (hlt hi hj), fileBytes_get hj, Nat.add_assoc]
  | some v =>
    have e1 : p.convert mem = writeAt mem p.q.xbuf
        ((List.range p.n).flatMap (fun i => v.elem (fileBytes mem (p.q.xbuf + p.q.d.esize * i) p.q.d.esize))) := by
      unfold Pend.convert
      rw [h1, hc]
    have e2 : k.size = v.size := by
      unfold QCall.size
      rw [hc]
    have e3 : ∀ l, k.value l = v.elem l := by
      intro l
      unfold QCall.value
      rw [hc]
    obtain ⟨g1, g2⟩ := flatMap_get (n := p.n) (e := v.size) (g := fun i => v.elem (fileBytes mem (p.q.xbuf + p.q.d.esize * i) p.q.d.esize))
      (fun i _ => hk.conv v hc _ (by rw [fileBytes_length, h2]))
    rw [e1, e2]
    refine ⟨?_, ?_⟩
    · intro i j hi hj
      have g3 := g2 i j hi hj
      have : j < (v.elem (fileBytes mem (p.q.xbuf + p.q.d.esize * i) p.q.d.esize)).length := by
        rw [hk.conv v hc _ (by rw [fileBytes_length, h2])]
        exact hj
      rw [fileBytes_get (hlt hi hj), e3]
      rw [List.getElem?_eq_getElem this] at g3
      rw [writeAt_hit g3]
      simp only [h2] at this ⊢
      rw [List.getElem?_eq_getElem this]
    · intro z hz
      refine writeAt_miss ?_
      rw [g1, h3]
      intro hz'
      have : k.xs.length * v.size ≤ k.xs.length * max v.size k.d.esize := Nat.mul_le_mul_left _ (Nat.le_max_left _ _)
      omega

theorem whole_iff (k : QCall) :
    wholeMem (k.c.m.resolve k.d k.c.f) = true ↔ k.Whole := by
  have key : ∀ (dims : List Nat) (sel : H5Sel), wholeMem (some (dims, sel)) = true ↔ ∃ n, sel = .all n := by
    intro dims sel
    cases sel <;> simp [wholeMem]
  unfold QCall.Whole MArg.resolve
  cases k.c.m with
  | block => simp [wholeMem]
  | all =>
    simp only
    rw [resolve_eq]
    exact key _ _
  | space dims sel => exact key _ _

/-- What the call queues, and what the post-processing does with it. -/
theorem queued_ok {srt : List (List Nat) → List Nat} (hs : IsSort srt) {k : QCall} {p : Pend} (hq : QueuedBy srt k p) (hk : k.OK) :
    p.q.did = k.c.did ∧ p.q.d = k.d ∧ Exact k.d.ndim p.q.bs k.xs ∧ k.xs.Pairwise RowLt ∧
    (∀ z, p.q.xbuf ≤ z → z < p.q.xbuf + k.d.esize * k.xs.length → k.User z ∨ k.Inner z) ∧
    ∀ mem, ∃ mem', p.post mem = .ok mem' ∧
      (∀ i a j b, k.as[i]? = some a → (k.value (fileBytes mem (p.q.xbuf + k.d.esize * i) k.d.esize))[j]? = some b → mem' (a + j) = b) ∧
      ∀ z, ¬ k.User z → ¬ k.Inner z → mem' z = mem z := by
  obtain ⟨st, hd, hp⟩ := hq
  have hx := hk.xfer
  obtain ⟨s, e1, e2, hex, hso⟩ := select_ok hs hx.chosen hx.supp
  rw [fileSpace_esize] at e1
  have hnd : ({ k.d with esize := k.size } : DInfo).ndim = k.d.ndim := rfl
  rw [hnd] at e1 e2 hex
  have h0 : s.nsel ≠ 0 := fun h0 => hk.ne ((nsel_zero hex).mp h0)
  have hsum : (s.blocks.map Blk.size).sum = k.xs.length := hex.count_le.2
  have hsz : 0 < k.size := hx.es
  have hvl : ∀ l : List Byte, l.length = k.d.esize → (k.value l).length = k.size := by
    intro l hl
    unfold QCall.value QCall.size
    cases hc : k.c.conv with
    | none => exact hl
    | some v => exact hk.conv v hc l hl
  unfold FState.h5dreadQ at hp
  rw [hd] at hp
  simp only [resolve_eq] at hp
  rw [e1, Res.ok_bind, if_neg h0, hsum] at hp
  have hcases := memAt_cases hx
  rw [resolve_esize] at hcases
  obtain ⟨hl, hcases⟩ := hcases
  simp only at hcases
  split at hp
  · -- directly into the user buffer
    rename_i hc
    rw [Bool.and_eq_true] at hc
    obtain ⟨hc, hw⟩ := hc
    have hc : k.c.conv = none := by simpa using hc
    have hes : k.size = k.d.esize := by
      unfold QCall.size
      rw [hc]
    simp only [Res.pure_eq, Res.ok.injEq, Option.some.injEq] at hp
    subst hp
    rcases hcases with ⟨_, ha⟩ | ⟨dims, sel, ys, r1, r2, _⟩
    · refine ⟨rfl, rfl, hex, hso, ?_, ?_⟩
      · intro z z1 z2
        simp only at z1 z2
        refine .inl ⟨k.c.ubuf + k.size * ((z - k.c.ubuf) / k.size), ?_, ?_⟩
        · rw [ha]
          refine List.mem_map.mpr ⟨_, List.mem_range.mpr ?_, rfl⟩
          rw [Nat.div_lt_iff_lt_mul hsz, hes, Nat.mul_comm]
          omega
        · have hdm := Nat.div_add_mod (z - k.c.ubuf) k.size
          have hml := Nat.mod_lt (z - k.c.ubuf) hsz
          omega
      · intro mem
        refine ⟨mem, ?_, ?_, fun _ _ _ => rfl⟩
        · unfold Pend.post Pend.convert
          simp
        · intro i a j b hi hb
          have hv : k.value (fileBytes mem (k.c.ubuf + k.d.esize * i) k.d.esize) = fileBytes mem (k.c.ubuf + k.d.esize * i) k.d.esize := by
            unfold QCall.value
            rw [hc]
          simp only [hv] at hb
          have hj : j < k.d.esize := by
            have := (List.getElem?_eq_some_iff.mp hb).1
            rwa [fileBytes_length] at this
          rw [fileBytes_get hj, Option.some.injEq] at hb
          rw [ha, List.getElem?_map, Option.map_eq_some_iff] at hi
          obtain ⟨i', hi, rfl⟩ := hi
          have hii : i' = i := by
            have := (List.getElem?_eq_some_iff.mp hi).2
            simpa using this.symm
          rw [hii, hes, hb]
    · rw [r1] at hw
      unfold wholeMem at hw
      split at hw
      · rename_i e; cases e
      · rename_i e
        cases e
        exact absurd rfl (r2 _)
      · simp at hw
  · -- through the internal buffer
    rename_i hc
    obtain ⟨t, t1, t2⟩ := Res.bind_ok hp
    simp only [Res.pure_eq, Res.ok.injEq, Option.some.injEq] at t2
    rw [call_size] at t1
    have hpe : p = ⟨⟨k.c.did, k.d, s.blocks, k.c.xbuf⟩, k.xs.length, k.c.ubuf, k.c.conv, t⟩ := t2.symm
    have hbuf : ∀ z, p.q.xbuf ≤ z → z < p.q.xbuf + k.d.esize * k.xs.length → k.User z ∨ k.Inner z := by
      intro z z1 z2
      rw [hpe] at z1 z2
      simp only at z1 z2
      refine .inr ⟨z1, ?_⟩
      have : k.xs.length * k.d.esize ≤ k.xs.length * max k.size k.d.esize := Nat.mul_le_mul_left _ (Nat.le_max_right _ _)
      rw [Nat.mul_comm k.d.esize] at z2
      omega
    refine ⟨by rw [hpe], by rw [hpe], by rw [hpe]; exact hex, hso, hbuf, ?_⟩
    intro mem
    obtain ⟨c1, c2⟩ := convert_ok (p := p) (k := k) (by rw [hpe]) (by rw [hpe]) (by rw [hpe]) hk mem
    have hne : p.q.xbuf ≠ p.ubuf := by rw [hpe]; exact hk.start
    have hpn : p.n = k.xs.length := by rw [hpe]
    have hpx : p.q.xbuf = k.c.xbuf := by rw [hpe]
    have hpu : p.ubuf = k.c.ubuf := by rw [hpe]
    have hpd : p.q.d.esize = k.d.esize := by rw [hpe]
    have hpt : p.ptype = t := by rw [hpe]
    have hpost : p.post mem = match p.ptype with
        | some offs => mpiUnpack (fileBytes (p.convert mem) p.q.xbuf (p.n * k.size)) (p.n * k.d.esize) k.c.ubuf offs (p.convert mem)
        | none => .ok (writeAt (p.convert mem) k.c.ubuf (fileBytes (p.convert mem) p.q.xbuf (p.n * k.size))) := by
      have hsz' : p.size = k.size := by
        rw [hpe]
        rfl
      unfold Pend.post
      simp only
      rw [if_neg hne]
      rw [hsz', hpu, hpd]
      cases p.ptype <;> rfl
    have frame : ∀ z, ¬ k.Inner z → p.convert mem z = mem z := by
      intro z hz
      refine c2 z ?_
      rw [hpx]
      exact hz
    rcases hcases with ⟨hw, ha⟩ | ⟨dims, sel, ys, r1, r2, r3, r4, r5, r6, r7, r8, r9⟩
    · have ht : t = none := by
        unfold wholeMem at hw
        unfold memType at t1
        split at hw <;> rename_i e
        · rw [e] at t1
          simpa using t1.symm
        · rw [e] at t1
          simpa using t1.symm
        · simp at hw
      rw [hpt, ht] at hpost
      refine ⟨_, hpost, ?_, ?_⟩
      · intro i a j b hi hb
        have hj : j < k.size := by
          have := (List.getElem?_eq_some_iff.mp hb).1
          rwa [hvl _ (fileBytes_length _ _ _)] at this
        have hil : i < k.xs.length := by
          have := (List.getElem?_eq_some_iff.mp hi).1
          omega
        rw [ha, List.getElem?_map, Option.map_eq_some_iff] at hi
        obtain ⟨i', hi, rfl⟩ := hi
        have hii : i' = i := by
          have := (List.getElem?_eq_some_iff.mp hi).2
          simpa using this.symm
        rw [hii, Nat.add_assoc]
        exact writeAt_hit ((c1 i j (by omega) hj).trans hb)
      · intro z z1 z2
        refine (writeAt_miss ?_).trans (frame z z2)
        rw [fileBytes_length, hpn]
        intro hz
        refine z1 ⟨k.c.ubuf + k.size * ((z - k.c.ubuf) / k.size), ?_, ?_⟩
        · rw [ha]
          refine List.mem_map.mpr ⟨_, List.mem_range.mpr ?_, rfl⟩
          rw [Nat.div_lt_iff_lt_mul hsz]
          omega
        · have hdm := Nat.div_add_mod (z - k.c.ubuf) k.size
          have hml := Nat.mod_lt (z - k.c.ubuf) hsz
          omega
    · -- a selection in memory
      obtain ⟨u, u1, u2, u3, u4⟩ := select_ok hs r6 r5
      have hyn : ys ≠ [] := by
        intro e
        rw [e] at r8
        exact hk.ne (List.length_eq_zero_iff.mp r8.symm)
      have hms := memSel_of u3 r3 r4 r7 hyn
      have ht : t = some (Props.cellOffs dims k.size (cellsB u.blocks)) := by
        rw [r1] at t1
        unfold memType at t1
        split at t1
        · rename_i e; cases e
        · rename_i e
          cases e
          exact absurd rfl (r2 _)
        · rename_i e
          cases e
          rw [u1, Res.ok_bind, Props.memOffs_ok hms, Res.ok_bind, u2, Res.ok_bind] at t1
          simpa using t1.symm
      have hwide : k.size ≤ k.d.esize := by
        rcases hk.wide with h | h
        · have := (whole_iff k).mpr h
          rw [r1] at this
          unfold wholeMem at this
          split at this
          · rename_i e; cases e
          · rename_i e
            cases e
            exact absurd rfl (r2 _)
          · simp at this
        · exact h
      obtain ⟨mem', g1, g2, g3⟩ := Props.C47_scatter_partial hms (u3.noCommon u4) (p.convert mem)
        (fun _ => fileBytes (p.convert mem) p.q.xbuf (p.n * k.size)) [] k.c.ubuf
        p.n k.d.esize k.size (by rw [u3.count_le.2, r8, hpn]) hwide (by simp [fileBytes])
      refine ⟨mem', ?_, ?_, ?_⟩
      · rw [hpost, hpt, ht]
        simp only
        unfold scatter at g1
        rw [Props.memOffs_ok hms, Res.ok_bind] at g1
        exact g1
      · intro i a j b hi hb
        have hj : j < k.size := by
          have := (List.getElem?_eq_some_iff.mp hb).1
          rwa [hvl _ (fileBytes_length _ _ _)] at this
        rw [r9, List.getElem?_map, Option.map_eq_some_iff] at hi
        obtain ⟨y, hy, rfl⟩ := hi
        obtain ⟨hi', rfl⟩ := List.getElem?_eq_some_iff.mp hy
        obtain ⟨bl, hbl, hin, he⟩ := u3.block hi' k.size
        have := g2 bl _ _ j (List.getElem?_eq_getElem hbl) hin hj
        rw [he, elemAddr_rowIdx, c1 i j (by omega) hj, hb, Option.some.injEq] at this
        exact this.symm
      · intro z z1 z2
        refine (g3 z ?_).trans (frame z z2)
        intro bl hbl y hy j hj e
        have hym := u3.cover bl hbl y hy
        refine z1 ⟨k.c.ubuf + k.size * rowIdx dims y, by rw [r9]; exact List.mem_map_of_mem hym, ?_⟩
        rw [e, elemAddr_rowIdx]
        omega

end Verif
