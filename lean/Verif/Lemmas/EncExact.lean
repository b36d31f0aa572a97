import Verif.Lemmas.MetaDecode
import Verif.Lemmas.EncOK

/-
Encoded entries of writes whose blocks may span whole dimensions: they decode to something, and to the
blocks only if no count reaches the extent.
-/

namespace Verif

/-- Numbers of blocks inside the extent are bounded. -/
theorem selEncode_le_mul {ds cs : List Nat} (hpos : ∀ x ∈ ds, 0 < x)
    (h : ∀ i, ∀ (h1 : i < cs.length) (h2 : i < ds.length), cs[i] ≤ ds[i]) :
    selEncode (dsteps ds) cs ≤ ds.length * prod ds := by
  induction ds generalizing cs with
  | nil => cases cs <;> simp [dsteps, selEncode]
  | cons d ds ih =>
    cases cs with
    | nil => simp [dsteps, selEncode]
    | cons c cs =>
      have h0 : c ≤ d := h 0 (by simp) (by simp)
      have h1 := ih (cs := cs) (fun x hx => hpos x (by simp [hx]))
        (fun i a b => h (i + 1) (by simpa using a) (by simpa using b))
      have hd : 0 < d := hpos d (by simp)
      simp only [dsteps, selEncode, prod_cons, List.length_cons]
      have h2 : c * prod ds ≤ d * prod ds := Nat.mul_le_mul_right _ h0
      have h3 : 1 * (ds.length * prod ds) ≤ d * (ds.length * prod ds) := Nat.mul_le_mul_right _ hd
      have h4 : (ds.length + 1) * (d * prod ds) = d * (ds.length * prod ds) + d * prod ds := by
        rw [Nat.add_mul, Nat.one_mul, Nat.mul_left_comm]
      omega

theorem selDecode_total {ds : List Nat} (hpos : ∀ x ∈ ds, 0 < x) (x : Nat) :
    ∃ cs, selDecode (dsteps ds) x = .ok cs := by
  induction ds generalizing x with
  | nil => exact ⟨[], rfl⟩
  | cons d ds ih =>
    obtain ⟨cs, h⟩ := ih (fun y hy => hpos y (by simp [hy])) (x % prod ds)
    have hp : 0 < prod ds := prod_pos (fun y hy => hpos y (by simp [hy]))
    refine ⟨x / prod ds :: cs, ?_⟩
    simp only [dsteps, selDecode]
    rw [if_neg (by omega), h]
    rfl

/-- The decoded vectors of numbers. -/
theorem mapRes_selDecode {ds : List Nat} (hpos : ∀ x ∈ ds, 0 < x) (ws : List Nat) :
    ∃ vs : List (List Nat), mapRes (selDecode (dsteps ds)) ws = .ok vs ∧ vs.length = ws.length ∧
      ∀ i, ∀ (h1 : i < vs.length) (h2 : i < ws.length), selDecode (dsteps ds) ws[i] = .ok vs[i] := by
  induction ws with
  | nil => exact ⟨[], rfl, rfl, by simp⟩
  | cons w ws ih =>
    obtain ⟨vs, h1, h2, h3⟩ := ih
    obtain ⟨v, h4⟩ := selDecode_total hpos w
    refine ⟨v :: vs, ?_, by simp [h2], ?_⟩
    · simp only [mapRes]
      rw [h4, h1]
      rfl
    · intro i a b
      cases i with
      | zero => exact h4
      | succ i => exact h3 i (by simpa using a) (by simpa using b)

theorem rawCoords_total {d : DInfo} {bs : List Blk} {r : Nat} (hpos : ∀ x ∈ d.dims, 0 < x)
    (hd : d.ndim - r ≠ 0) :
    ∃ ss cs : List (List Nat), rawCoords true (d.ndim - r) bs.length
      (((dsteps d.dims).drop r).take (d.ndim - r - 1) ++ encWords (dsteps d.dims) r bs) = .ok (ss, cs) ∧
      ss.length = bs.length ∧ cs.length = bs.length ∧
      (∀ i, ∀ (h1 : i < cs.length) (h2 : i < bs.length),
        selDecode (dsteps (d.dims.drop r)) (selEncode (dsteps (d.dims.drop r)) (bs[i].count.drop r)) = .ok cs[i]) ∧
      ∀ i, ∀ (h1 : i < ss.length) (h2 : i < bs.length),
        selDecode (dsteps (d.dims.drop r)) (selEncode (dsteps (d.dims.drop r)) (bs[i].start.drop r)) = .ok ss[i] := by
  have hlen : (d.dims.drop r).length = d.ndim - r := by
    rw [List.length_drop]; rfl
  have hne : d.dims.drop r ≠ [] := by
    intro hh; rw [hh] at hlen; simp at hlen; omega
  have htl : (((dsteps d.dims).drop r).take (d.ndim - r - 1)).length = d.ndim - r - 1 := by
    rw [List.length_take, dsteps_drop, dsteps_length, hlen]; omega
  have hp : ∀ x ∈ d.dims.drop r, 0 < x := fun x hx => hpos x (List.mem_of_mem_drop hx)
  unfold rawCoords
  simp only [if_true]
  rw [take_app _ _ _ htl.symm, drop_app _ _ _ htl.symm]
  rw [dsteps_drop] at *
  have hs := dsteps_take_last _ hne
  rw [hlen] at hs
  rw [hs]
  unfold encWords
  rw [take_app _ _ _ (by simp), drop_app _ _ _ (by simp)]
  rw [List.take_of_length_le (by simp)]
  obtain ⟨ss, s1, s2, s3⟩ := mapRes_selDecode hp
    (bs.map (fun b => selEncode ((dsteps d.dims).drop r) (b.start.drop r)))
  obtain ⟨cs, c1, c2, c3⟩ := mapRes_selDecode hp
    (bs.map (fun b => selEncode ((dsteps d.dims).drop r) (b.count.drop r)))
  rw [s1, c1]
  refine ⟨ss, cs, rfl, by simpa using s2, by simpa using c2, fun i h1 h2 => ?_, fun i h1 h2 => ?_⟩
  · have := c3 i h1 (by simpa using h2)
    simpa only [List.getElem_map, dsteps_drop] using this
  · have := s3 i h1 (by simpa using h2)
    simpa only [List.getElem_map, dsteps_drop] using this

theorem recFix_digits {d : DInfo} {bs : List Blk} {x : Nat} {c : List Nat} {b : Blk} (hb : b.count.length = d.ndim)
    (he : recFix (recOf d bs) x c = b.count) (h : Digits (d.dims.drop (recDims d bs)).tail c.tail) :
    Spec.NotFullWidth (recDims d bs + 1) d.dims b := by
  have hc : c = b.count.drop (recDims d bs) := by
    unfold recDims
    cases hr : recOf d bs with
    | none => rw [hr] at he; simpa [recFix] using he
    | some n => rw [hr] at he; simp [← he, recFix]
  subst hc
  intro i hi h1 h2
  have := (digits_iff.mp h).2 (i - recDims d bs - 1) (by simp; omega) (by simp; omega)
  simp only [List.getElem_tail, List.getElem_drop] at this
  have e : recDims d bs + (i - recDims d bs - 1 + 1) = i := by omega
  simpa only [e] using this

theorem addDoffs_count (e acc : Nat) (l : List (List Nat × List Nat)) : (addDoffs e acc l).map MSel.count = l.map Prod.snd := by
  induction l generalizing acc with
  | nil => rfl
  | cons p l ih => rcases p with ⟨s, c⟩; simp [addDoffs, ih]

/-- What the numbers of an encoded entry give: always some blocks; each has the vectors that its numbers decode to, and the position after
the decoded blocks before it. -/
theorem selsOfWords_total {d : DInfo} {bs : List Blk} (hpos : ∀ x ∈ d.dims, 0 < x)
    (hd : d.ndim - recDims d bs ≠ 0) :
    ∃ ms, selsOfWords d true (d.ndim - recDims d bs) bs.length (recOf d bs)
      (((dsteps d.dims).drop (recDims d bs)).take (d.ndim - recDims d bs - 1)
        ++ encWords (dsteps d.dims) (recDims d bs) bs) = .ok ms ∧ ms.length = bs.length ∧
      (∀ i, ∀ (h1 : i < ms.length) (h2 : i < bs.length), ∃ c,
        selDecode (dsteps (d.dims.drop (recDims d bs)))
          (selEncode (dsteps (d.dims.drop (recDims d bs))) (bs[i].count.drop (recDims d bs))) = .ok c ∧
        ms[i].count = recFix (recOf d bs) 1 c) ∧
      (∀ i, ∀ (h1 : i < ms.length) (h2 : i < bs.length), ∃ c,
        selDecode (dsteps (d.dims.drop (recDims d bs)))
          (selEncode (dsteps (d.dims.drop (recDims d bs))) (bs[i].start.drop (recDims d bs))) = .ok c ∧
        ms[i].start = recFix (recOf d bs) ((recOf d bs).getD 0) c) ∧
      ∀ i, ∀ (h1 : i < ms.length), ms[i].doff = d.esize * ((ms.take i).map (fun s => prod s.count)).sum := by
  obtain ⟨ss, cs, h1, h2, h3, h4, h5⟩ := rawCoords_total (bs := bs) hpos hd
  unfold selsOfWords
  rw [h1]
  simp only [Res.ok_bind, Res.pure_eq]
  refine ⟨_, rfl, by simp [addDoffs_length, h2, h3], fun i hi hb => ?_, fun i hi hb => ?_, fun i hi => ?_⟩
  · refine ⟨cs[i], h4 i (by omega) hb, ?_⟩
    rw [addDoffs_get d.esize 0 _ i hi (by simp [h2, h3, hb])]
    simp only [List.getElem_zip, List.getElem_map]
  · refine ⟨ss[i], h5 i (by omega) hb, ?_⟩
    rw [addDoffs_get d.esize 0 _ i hi (by simp [h2, h3, hb])]
    simp only [List.getElem_zip, List.getElem_map]
  · rw [addDoffs_get d.esize 0 _ i hi (by rw [← addDoffs_length d.esize 0]; exact hi)]
    simp only [Nat.zero_add]
    have h6 := congrArg (fun l => ((l.take i).map prod).sum) (addDoffs_count d.esize 0
      ((ss.map (recFix (recOf d bs) ((recOf d bs).getD 0))).zip (cs.map (recFix (recOf d bs) 1))))
    simp only [← List.map_take, List.map_map] at h6
    exact congrArg (d.esize * ·) h6.symm

/-- They are the written blocks only if no count reaches the extent of its dimension. -/
theorem notFull_of_sels {d : DInfo} {bs : List Blk} (h : Spec.SelOK d bs) {ms : List MSel} (hl : ms.length = bs.length)
    (hm : ∀ i, ∀ (h1 : i < ms.length) (h2 : i < bs.length), ∃ c,
        selDecode (dsteps (d.dims.drop (recDims d bs)))
          (selEncode (dsteps (d.dims.drop (recDims d bs))) (bs[i].count.drop (recDims d bs))) = .ok c ∧
        ms[i].count = recFix (recOf d bs) 1 c) (he : ms = Spec.sels d.esize bs) :
    ∀ b ∈ bs, Spec.NotFullWidth (recDims d bs + 1) d.dims b := by
  intro b hb
  obtain ⟨i, hi, rfl⟩ := List.getElem_of_mem hb
  obtain ⟨c, c1, c2⟩ := hm i (by omega) hi
  have e2 : ms[i].count = bs[i].count := by
    subst he
    simp only [Spec.sels, List.getElem_mapIdx]
  exact recFix_digits (h.blk _ hb).hc (c2.symm.trans e2) (selDecode_tail_digits c1)

/-- Decoding an encoded entry. -/
theorem metaDecode_enc {cfg : Cfg} {d : DInfo} {did : Nat} {bs : List Blk} {mo : Nat}
    {foff : Int} {data : List Byte} (h : Spec.SelOK d bs) (hE : (wreqFlags cfg d bs).enc = true)
    (h64 : ∀ w ∈ ((dsteps d.dims).drop (recDims d bs)).take (d.ndim - recDims d bs - 1)
      ++ encWords (dsteps d.dims) (recDims d bs) bs, w < 2 ^ 64)
    (hf : (plainReq cfg d did bs mo foff data).hdr.Fits) (pre post : List Byte) :
    metaDecode d (pre ++ (plainReq cfg d did bs mo foff data).bytes ++ post) pre.length =
      (do
        let sels ← selsOfWords d true (d.ndim - recDims d bs) bs.length (recOf d bs)
          (((dsteps d.dims).drop (recDims d bs)).take (d.ndim - recDims d bs - 1)
            ++ encWords (dsteps d.dims) (recDims d bs) bs)
        let ds ← decDsize d (d.ndim - recDims d bs) sels
        return { hdr := (plainReq cfg d did bs mo foff data).hdr, sels := sels, dsize := ds }) := by
  have hfl : (plainReq cfg d did bs mo foff data).hdr.flags = wreqFlags cfg d bs := rfl
  have hrecd : (wreqFlags cfg d bs).recd = (recOf d bs).isSome := rfl
  have hmul : (wreqFlags cfg d bs).mul = decide (1 < bs.length) := rfl
  have hencdef : (wreqFlags cfg d bs).enc
    = (decide (1 < bs.length) && decide (1 < d.ndim - recDims d bs) && cfg.selEncode) := rfl
  have hc := hencdef.symm.trans hE
  have hed : (if (wreqFlags cfg d bs).recd = true then d.ndim - 1 else d.ndim)
      = d.ndim - recDims d bs := by
    unfold recDims; rw [hrecd]; split <;> rfl
  have hroption : (if (wreqFlags cfg d bs).recd = true then some ((recOf d bs).getD 0) else none)
      = recOf d bs := by
    rw [hrecd]; cases recOf d bs <;> rfl
  generalize hws : ((dsteps d.dims).drop (recDims d bs)).take (d.ndim - recDims d bs - 1)
      ++ encWords (dsteps d.dims) (recDims d bs) bs = ws at *
  have hbytes : (plainReq cfg d did bs mo foff data).bytes
      = (plainReq cfg d did bs mo foff data).hdr.bytes
        ++ (if (plainReq cfg d did bs mo foff data).hdr.flags.recd then leN 8 ((recOf d bs).getD 0) else [])
        ++ (if (plainReq cfg d did bs mo foff data).hdr.flags.mul then leN 4 bs.length else [])
        ++ putWords ws := by
    unfold WReq.bytes
    have : (plainReq cfg d did bs mo foff data).selBuf
        = (if (wreqFlags cfg d bs).mul then leN 4 bs.length else []) ++ putWords ws := by
      show selBytes cfg d bs = _
      unfold selBytes
      rw [hmul, ← hws, putWords_append]
      exact congrArg (_ ++ ·) (if_pos hc)
    rw [this]
    simp only [List.append_assoc]
    rfl
  rw [hbytes]
  have hposm : 0 < (plainReq cfg d did bs mo foff data).hdr.metaSize := by
    show (0 : Int) < ((plainReq cfg d did bs mo foff data).metaSize : Int)
    unfold WReq.metaSize WReq.selOff hdrSize
    omega
  have hcd : 1 < d.ndim - recDims d bs := by
    simp at hc; omega
  have hdsl : (((dsteps d.dims).drop (recDims d bs)).take (d.ndim - recDims d bs - 1)).length
      = d.ndim - recDims d bs - 1 := by
    rw [List.length_take, List.length_drop, dsteps_length]
    show min _ (d.ndim - _) = _
    omega
  rw [metaDecode_layout d _ hf hposm (by rw [hfl]; rfl) _ _ ws pre post
    (by
      rw [hfl, hrecd]
      intro hh
      cases hr : recOf d bs with
      | none => rw [hr] at hh; simp at hh
      | some n => exact (recOf_some hr).1)
    (by
      cases hr : recOf d bs with
      | none => simp
      | some n => exact recOf_lt h hr)
    h.len
    (by
      rw [hfl, hmul]
      intro hh
      have := h.ne
      have : 0 < bs.length := List.length_pos_iff.mpr this
      simp at hh
      omega)
    (by
      rw [hfl, hed]
      intro _
      omega)
    (by
      rw [hfl, hed, hE, if_pos rfl, ← hws, List.length_append, hdsl]
      simp only [encWords, List.length_append, List.length_map]
      omega)
    h64 rfl]
  rw [hfl, hed, hroption, hE]

theorem enc_words_lt {dims : List Nat} {r : Nat} {bs : List Blk} (k : Nat)
    (hb : ∀ b ∈ bs, Spec.InExtent dims b) (hpos : ∀ x ∈ dims, 0 < x)
    (hp : dims.length * prod dims < 2 ^ 63) :
    ∀ w ∈ ((dsteps dims).drop r).take k ++ encWords (dsteps dims) r bs, w < 2 ^ 64 := by
  cases hd : dims with
  | nil =>
    intro w hw
    rcases List.mem_append.mp hw with hw | hw
    · simp [dsteps] at hw
    · unfold encWords at hw
      rcases List.mem_append.mp hw with hh | hh <;>
      · obtain ⟨b, _, rfl⟩ := List.mem_map.mp hh
        simp [dsteps, selEncode]
  | cons d0 ds =>
    rw [← hd]
    have hl : 0 < dims.length := by simp [hd]
    have hpl : prod dims < 2 ^ 63 := Nat.lt_of_le_of_lt (Nat.le_mul_of_pos_left _ hl) hp
    have hq : ∀ x ∈ dims.drop r, 0 < x := fun x hx => hpos x (List.mem_of_mem_drop hx)
    have hmul : (dims.drop r).length * prod (dims.drop r) < 2 ^ 63 :=
      Nat.lt_of_le_of_lt (Nat.mul_le_mul (by simp) (prod_drop_le hpos r)) hp
    intro w hw
    rcases List.mem_append.mp hw with hw | hw
    · have := dsteps_le hpos w (List.mem_of_mem_drop (List.mem_of_mem_take hw))
      omega
    · unfold encWords at hw
      rw [dsteps_drop] at hw
      rcases List.mem_append.mp hw with hh | hh
      · obtain ⟨b, hbm, rfl⟩ := List.mem_map.mp hh
        obtain ⟨h1, h2, h3⟩ := hb b hbm
        have := selEncode_le_mul (ds := dims.drop r) (cs := b.start.drop r) hq (by
          intro i a1 a2
          simp only [List.getElem_drop]
          have := h3 (r + i) (by simp at a1; omega) (by simp at a1; omega) (by simp at a2; omega)
          omega)
        omega
      · obtain ⟨b, hbm, rfl⟩ := List.mem_map.mp hh
        obtain ⟨h1, h2, h3⟩ := hb b hbm
        have := selEncode_le_mul (ds := dims.drop r) (cs := b.count.drop r) hq (by
          intro i a1 a2
          simp only [List.getElem_drop]
          have := h3 (r + i) (by simp at a1; omega) (by simp at a1; omega) (by simp at a2; omega)
          omega)
        omega

/-! ### Whole rows -/

theorem prod_zero_of_mem {l : List Nat} (h : 0 ∈ l) : prod l = 0 := by
  induction l with
  | nil => simp at h
  | cons x l ih =>
    rw [prod_cons]
    rcases List.mem_cons.mp h with h | h
    · rw [← h, Nat.zero_mul]
    · rw [ih h, Nat.mul_zero]

theorem selDecode_cons {d : Nat} {ds : List Nat} {x : Nat} {cs : List Nat} (h : selDecode (dsteps (d :: ds)) x = .ok cs) :
    ∃ r, selDecode (dsteps ds) (x % prod ds) = .ok r ∧ cs = x / prod ds :: r := by
  simp only [dsteps, selDecode] at h
  split at h
  · simp at h
  · cases hr : selDecode (dsteps ds) (x % prod ds) with
    | err => rw [hr] at h; simp at h
    | ub => rw [hr] at h; simp at h
    | ok r =>
      rw [hr] at h
      simp only [Res.ok_bind, Res.pure_eq, Res.ok.injEq] at h
      exact ⟨r, rfl, h.symm⟩

/-- If a count reaches its extent, the number decodes, in its place, to a vector with a 0. -/
theorem selDecode_full {ds cs r : List Nat} (hl : cs.length = ds.length)
    (h : ∀ i, ∀ (h1 : i < cs.length) (h2 : i < ds.length), cs[i] ≤ ds[i]) (hn : ¬ Digits ds cs)
    (hr : selDecode (dsteps ds) (selEncode (dsteps ds) cs % prod ds) = .ok r) : 0 ∈ r := by
  induction ds generalizing cs r with
  | nil => match cs, hl with | [], _ => exact absurd trivial hn
  | cons d ds ih =>
    match cs, hl with
    | c :: cs, hl =>
      have h0 : c ≤ d := h 0 (by simp) (by simp)
      obtain ⟨t, t1, rfl⟩ := selDecode_cons hr
      simp only [dsteps, selEncode, prod_cons] at t1 ⊢
      rw [Nat.mod_mul_left_mod, Nat.mul_add_mod_self_right] at t1
      rcases Classical.em (Digits ds cs) with hd | hd
      · have hcd : c = d := by
          rcases Nat.lt_or_ge c d with hlt | hge
          · exact absurd ⟨hlt, hd⟩ hn
          · omega
        have hlt := selEncode_lt hd
        subst hcd
        rw [Nat.mul_comm c (prod ds), Nat.add_mod_left]
        have : selEncode (dsteps ds) cs % (prod ds * c) / prod ds = 0 := by
          refine Nat.div_eq_of_lt (Nat.lt_of_le_of_lt (Nat.mod_le _ _) hlt)
        rw [this]
        simp
      · exact List.mem_cons_of_mem _ (ih (by simpa using hl)
          (fun i a b => h (i + 1) (by simpa using a) (by simpa using b)) hd t1)

/-- The same for the whole number: the first dimension may be full. -/
theorem selDecode_lost {ds cs r : List Nat} (hl : cs.length = ds.length)
    (h : ∀ i, ∀ (h1 : i < cs.length) (h2 : i < ds.length), cs[i] ≤ ds[i]) (hn : ¬ Digits ds.tail cs.tail)
    (hr : selDecode (dsteps ds) (selEncode (dsteps ds) cs) = .ok r) : 0 ∈ r := by
  cases ds with
  | nil => match cs, hl with | [], _ => exact absurd trivial hn
  | cons d ds =>
    match cs, hl with
    | c :: cs, hl =>
      obtain ⟨t, t1, rfl⟩ := selDecode_cons hr
      simp only [dsteps, selEncode] at t1
      rw [Nat.mul_add_mod_self_right] at t1
      exact List.mem_cons_of_mem _ (selDecode_full (by simpa using hl)
        (fun i a b => h (i + 1) (by simpa using a) (by simpa using b)) hn t1)

end Verif
