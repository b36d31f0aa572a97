import Verif.Lemmas.Meta

namespace Verif

theorem unsle_leN4 {n : Nat} (h : n < 2 ^ 31) : unsle (leN 4 n) = n := by
  unfold unsle signed
  rw [leN_length, unle_leN_of_lt (by omega)]
  rw [if_pos (by omega)]

theorem rdWords_at (pre mid post : List Byte) (ws : List Nat) {off k : Nat}
    (ho : off = pre.length + mid.length) (hk : k = ws.length) (h : ∀ w ∈ ws, w < 2 ^ 64) :
    rdWords (pre ++ (mid ++ putWords ws) ++ post) off k = .ok ws := by
  have := @rdWords_append (pre ++ mid) post ws off k (by simp [ho]) hk h
  simpa [List.append_assoc] using this

theorem rd_at (pre a mid b post : List Byte) {off n : Nat}
    (ho : off = pre.length + a.length) (hn : n = mid.length) :
    rd (pre ++ (a ++ mid ++ b) ++ post) off n = .ok mid := by
  have := @rd_append (pre ++ a) mid (b ++ post) off n (by simp [ho]) hn
  simpa [List.append_assoc] using this

/-- Decoding a buffer laid out as header, record number, block count, words. -/
theorem metaDecode_layout (d : DInfo) (h : Hdr) (hf : h.Fits) (hpos : 0 < h.metaSize)
    (hdefl : h.flags.defl = false) (rec nsel : Nat) (ws : List Nat) (pre post : List Byte)
    (hrec : h.flags.recd = true → d.ndim ≠ 0) (hrec64 : rec < 2 ^ 64) (hnsel : nsel < 2 ^ 31)
    (hn1 : h.flags.mul = false → nsel = 1)
    (henc : h.flags.enc = true → (if h.flags.recd then d.ndim - 1 else d.ndim) ≠ 0)
    (hws : ws.length = if h.flags.enc then ((if h.flags.recd then d.ndim - 1 else d.ndim) - 1) + 2 * nsel
      else 2 * (if h.flags.recd then d.ndim - 1 else d.ndim) * nsel)
    (hw64 : ∀ w ∈ ws, w < 2 ^ 64) {ent : Nat} (hent : ent = pre.length) :
    metaDecode d (pre ++ (h.bytes ++ (if h.flags.recd then leN 8 rec else [])
        ++ (if h.flags.mul then leN 4 nsel else []) ++ putWords ws) ++ post) ent =
      (do
        let sels ← selsOfWords d h.flags.enc (if h.flags.recd then d.ndim - 1 else d.ndim) nsel
          (if h.flags.recd then some rec else none) ws
        let ds ← decDsize d (if h.flags.recd then d.ndim - 1 else d.ndim) sels
        return { hdr := h, sels := sels, dsize := ds }) := by
  subst hent
  have H1 : rdHdr (pre ++ (h.bytes ++ (if h.flags.recd then leN 8 rec else [])
        ++ (if h.flags.mul then leN 4 nsel else []) ++ putWords ws) ++ post) pre.length = .ok h := by
    have := rdHdr_bytes hf pre ((if h.flags.recd then leN 8 rec else [])
        ++ (if h.flags.mul then leN 4 nsel else []) ++ putWords ws ++ post) rfl
    simpa [List.append_assoc] using this
  unfold metaDecode
  rw [H1]
  simp only [Res.ok_bind]
  rw [if_neg (by omega)]
  have hx : ¬ (h.flags.recd = true ∧ d.ndim = 0) := fun hx => hrec hx.1 hx.2
  rw [if_neg hx]
  -- record number
  have H2 : ∀ (off : Nat), off = pre.length + hdrSize → h.flags.recd = true →
      rd (pre ++ (h.bytes ++ (if h.flags.recd then leN 8 rec else [])
        ++ (if h.flags.mul then leN 4 nsel else []) ++ putWords ws) ++ post) off 8
      = .ok (leN 8 rec) := by
    intro off ho hr
    rw [if_pos hr]
    have := rd_at pre h.bytes (leN 8 rec) ((if h.flags.mul then leN 4 nsel else []) ++ putWords ws)
      post (off := off) (n := 8) (by simp [ho, hdrSize]) (by simp)
    simpa [List.append_assoc] using this
  have H3 : ∀ (off : Nat), off = pre.length + hdrSize + (if h.flags.recd then 8 else 0) →
      h.flags.mul = true →
      rd (pre ++ (h.bytes ++ (if h.flags.recd then leN 8 rec else [])
        ++ (if h.flags.mul then leN 4 nsel else []) ++ putWords ws) ++ post) off 4
      = .ok (leN 4 nsel) := by
    intro off ho hm
    rw [if_pos hm]
    have := rd_at pre (h.bytes ++ (if h.flags.recd then leN 8 rec else [])) (leN 4 nsel) (putWords ws)
      post (off := off) (n := 4)
      (by rw [ho]; split <;> simp [hdrSize] <;> omega) (by simp)
    simpa [List.append_assoc] using this
  have H4 : ∀ (off k : Nat), off = pre.length + hdrSize + (if h.flags.recd then 8 else 0)
        + (if h.flags.mul then 4 else 0) → k = ws.length →
      rdWords (pre ++ (h.bytes ++ (if h.flags.recd then leN 8 rec else [])
        ++ (if h.flags.mul then leN 4 nsel else []) ++ putWords ws) ++ post) off k = .ok ws := by
    intro off k ho hk
    apply rdWords_at _ _ _ _ _ hk hw64
    rw [ho]
    split <;> split <;> simp [hdrSize] <;> omega
  generalize hB : (pre ++ (h.bytes ++ (if h.flags.recd then leN 8 rec else [])
        ++ (if h.flags.mul then leN 4 nsel else []) ++ putWords ws) ++ post) = B at *
  have hr8 : rec < 256 ^ 8 := by omega
  cases hr : h.flags.recd <;> cases hm : h.flags.mul <;>
    simp only [hr, hm, hdefl, if_true, if_false, Bool.false_eq_true, Res.ok_bind, Res.pure_eq,
      reduceCtorEq, false_and, and_false] at *
  · have := hn1 trivial
    subst this
    rw [if_neg (by omega)]
    rw [if_neg (fun hh => henc hh.1 hh.2)]
    rw [H4 _ _ (by omega) (by rw [hws]; rfl)]
    rfl
  · rw [H3 _ (by omega) trivial]
    simp only [Res.ok_bind, unsle_leN4 hnsel]
    rw [if_neg (by omega), if_neg (fun hh => henc hh.1 hh.2)]
    rw [H4 _ _ (by omega) (by rw [hws]; rfl)]
    rfl
  · have := hn1 trivial
    subst this
    rw [H2 _ (by omega) trivial]
    simp only [Res.ok_bind, unle_leN_of_lt hr8]
    rw [if_neg (by omega)]
    rw [if_neg (fun hh => henc hh.1 hh.2)]
    rw [H4 _ _ (by omega) (by rw [hws]; rfl)]
    rfl
  · rw [H2 _ (by omega) trivial]
    simp only [Res.ok_bind, unle_leN_of_lt hr8]
    rw [H3 _ (by omega) trivial]
    simp only [Res.ok_bind, unsle_leN4 hnsel]
    rw [if_neg (by omega), if_neg (fun hh => henc hh.1 hh.2)]
    rw [H4 _ _ (by omega) (by rw [hws]; rfl)]
    rfl

end Verif

namespace Verif

/-- Number of leading dimensions dropped for a record write. -/
def recDims (d : DInfo) (bs : List Blk) : Nat := if (recOf d bs).isSome then 1 else 0

theorem fix_blocks {d : DInfo} {bs : List Blk} :
    ((bs.map (fun b => b.start.drop (recDims d bs))).map (recFix (recOf d bs) ((recOf d bs).getD 0))) = bs.map Blk.start ∧
    ((bs.map (fun b => b.count.drop (recDims d bs))).map (recFix (recOf d bs) 1)) = bs.map Blk.count := by
  unfold recDims
  cases hr : recOf d bs with
  | none => simp [recFix]
  | some n =>
    have h := (recOf_some hr).2
    simp only [List.map_map, Option.getD_some, Option.isSome_some, if_true]
    constructor
    · apply List.map_congr_left
      intro b hb
      exact head_drop (h b hb).1
    · apply List.map_congr_left
      intro b hb
      exact head_drop (h b hb).2

theorem rawCoords_plain {d : DInfo} {bs : List Blk} (h : Spec.SelOK d bs) (r : Nat) :
    rawCoords false (d.ndim - r) bs.length (plainWords r bs)
      = .ok (bs.map (fun b => b.start.drop r), bs.map (fun b => b.count.drop r)) := by
  have hl1 : ∀ b ∈ bs, (b.start.drop r).length = d.ndim - r := by
    intro b hb; rw [List.length_drop, (h.blk b hb).hs]
  have hl2 : ∀ b ∈ bs, (b.count.drop r).length = d.ndim - r := by
    intro b hb; rw [List.length_drop, (h.blk b hb).hc]
  unfold rawCoords plainWords
  simp only [Bool.false_eq_true, if_false, Res.pure_eq]
  rw [chunks_flatMap _ _ _ _ hl1]
  rw [drop_app _ _ _ (flatMap_length_const _ _ _ hl1).symm]
  have h2 := chunks_flatMap (fun b : Blk => b.count.drop r) _ bs [] hl2
  rw [List.append_nil] at h2
  rw [h2]

theorem selsOfWords_plain {d : DInfo} {bs : List Blk} (h : Spec.SelOK d bs) :
    selsOfWords d false (d.ndim - recDims d bs) bs.length (recOf d bs) (plainWords (recDims d bs) bs)
      = .ok (Spec.sels d.esize bs) := by
  unfold selsOfWords
  rw [rawCoords_plain h]
  simp only [Res.ok_bind, Res.pure_eq]
  have hf := @fix_blocks d bs
  rw [hf.1, hf.2, addDoffs_blocks]

/-- All blocks can be encoded without loss: digits below the radix and codes below `2^64`. -/
structure EncOK (dims : List Nat) (r : Nat) (bs : List Blk) : Prop where
  ds : ∀ b ∈ bs, Digits (dims.drop r).tail (b.start.drop r).tail
  dc : ∀ b ∈ bs, Digits (dims.drop r).tail (b.count.drop r).tail
  s64 : ∀ w ∈ (dsteps dims).drop r, w < 2 ^ 64
  e64 : ∀ w ∈ encWords (dsteps dims) r bs, w < 2 ^ 64

theorem rawCoords_enc {d : DInfo} {bs : List Blk} {r : Nat} (h : Spec.SelOK d bs)
    (hd : d.ndim - r ≠ 0) (he : EncOK d.dims r bs) :
    rawCoords true (d.ndim - r) bs.length
      (((dsteps d.dims).drop r).take (d.ndim - r - 1) ++ encWords (dsteps d.dims) r bs)
      = .ok (bs.map (fun b => b.start.drop r), bs.map (fun b => b.count.drop r)) := by
  have hlen : (d.dims.drop r).length = d.ndim - r := by
    rw [List.length_drop]; rfl
  have hne : d.dims.drop r ≠ [] := by
    intro hh; rw [hh] at hlen; simp at hlen; omega
  have htl : (((dsteps d.dims).drop r).take (d.ndim - r - 1)).length = d.ndim - r - 1 := by
    rw [List.length_take, dsteps_drop, dsteps_length, hlen]; omega
  unfold rawCoords
  simp only [if_true]
  rw [take_app _ _ _ htl.symm, drop_app _ _ _ htl.symm]
  rw [dsteps_drop] at *
  have hs := dsteps_take_last _ hne
  rw [hlen] at hs
  rw [hs]
  unfold encWords
  rw [take_app _ _ _ (by simp), drop_app _ _ _ (by simp)]
  rw [List.take_of_length_le (by simp)]
  rw [dsteps_drop]
  rw [mapRes_map _ _ (fun b : Blk => b.start.drop r) bs
    (fun b hb => selDecode_selEncode
      (by rw [hlen, List.length_drop, (h.blk b hb).hs]) (he.ds b hb))]
  rw [mapRes_map _ _ (fun b : Blk => b.count.drop r) bs
    (fun b hb => selDecode_selEncode
      (by rw [hlen, List.length_drop, (h.blk b hb).hc]) (he.dc b hb))]
  rfl

theorem selsOfWords_enc {d : DInfo} {bs : List Blk} (h : Spec.SelOK d bs)
    (hd : d.ndim - recDims d bs ≠ 0) (he : EncOK d.dims (recDims d bs) bs) :
    selsOfWords d true (d.ndim - recDims d bs) bs.length (recOf d bs)
      (((dsteps d.dims).drop (recDims d bs)).take (d.ndim - recDims d bs - 1)
        ++ encWords (dsteps d.dims) (recDims d bs) bs)
      = .ok (Spec.sels d.esize bs) := by
  unfold selsOfWords
  rw [rawCoords_enc h hd he]
  simp only [Res.ok_bind, Res.pure_eq]
  have hf := @fix_blocks d bs
  rw [hf.1, hf.2, addDoffs_blocks]

/-- The header a request is written with. -/
def WReq.hdr (r : WReq) : Hdr :=
  { metaSize := r.metaSize, did := r.did, flags := r.flags, foff := r.foff, fsize := r.data.length }

/-- `dsize` as the decoder computes it for the written blocks (src/H5VL_logi_meta.cpp L277-281). -/
def specDsize (d : DInfo) (bs : List Blk) : Nat :=
  match (Spec.sels d.esize bs).getLast? with
  | none => 0
  | some s => d.esize * prod (s.count.take (d.ndim - recDims d bs)) + s.doff

theorem decDsize_sels {d : DInfo} {bs : List Blk} (h : bs ≠ []) :
    decDsize d (d.ndim - recDims d bs) (Spec.sels d.esize bs) = .ok (specDsize d bs) := by
  unfold decDsize specDsize
  cases hl : (Spec.sels d.esize bs).getLast? with
  | some s => rfl
  | none =>
    rw [List.getLast?_eq_none_iff] at hl
    have := congrArg List.length hl
    simp [Spec.sels] at this
    exact absurd this h

/-- A request as it stands in the metadata log after the flush: created by the constructor, file
offset filled in, selection not shared. -/
def plainReq (cfg : Cfg) (d : DInfo) (did : Nat) (bs : List Blk) (mo : Nat) (foff : Int)
    (data : List Byte) : WReq :=
  { mkWReq cfg d did bs mo data with foff := foff }

theorem plainWords_length {d : DInfo} {bs : List Blk} (h : Spec.SelOK d bs) (r : Nat) :
    (plainWords r bs).length = 2 * (d.ndim - r) * bs.length := by
  have hl1 : ∀ b ∈ bs, (b.start.drop r).length = d.ndim - r := by
    intro b hb; rw [List.length_drop, (h.blk b hb).hs]
  have hl2 : ∀ b ∈ bs, (b.count.drop r).length = d.ndim - r := by
    intro b hb; rw [List.length_drop, (h.blk b hb).hc]
  unfold plainWords
  rw [List.length_append, flatMap_length_const _ _ _ hl1, flatMap_length_const _ _ _ hl2,
    Nat.mul_assoc 2]
  omega

theorem recOf_lt {d : DInfo} {bs : List Blk} {n : Nat} (h : Spec.SelOK d bs)
    (hr : recOf d bs = some n) : n < 2 ^ 64 := by
  cases bs with
  | nil => exact absurd rfl h.ne
  | cons b bs =>
    have h1 := ((recOf_some hr).2 b (by simp)).1
    have h2 := (h.blk b (by simp)).s64
    exact h2 n (List.mem_of_head? h1)

theorem metaDecode_plainReq {cfg : Cfg} {d : DInfo} {did : Nat} {bs : List Blk} {mo : Nat}
    {foff : Int} {data : List Byte} (h : Spec.SelOK d bs)
    (he : (wreqFlags cfg d bs).enc = true → EncOK d.dims (recDims d bs) bs)
    (hf : (plainReq cfg d did bs mo foff data).hdr.Fits) (pre post : List Byte) {ent : Nat}
    (hent : ent = pre.length) :
    metaDecode d (pre ++ (plainReq cfg d did bs mo foff data).bytes ++ post) ent =
      .ok { hdr := (plainReq cfg d did bs mo foff data).hdr, sels := Spec.sels d.esize bs,
            dsize := specDsize d bs } := by
  have hfl : (plainReq cfg d did bs mo foff data).hdr.flags = wreqFlags cfg d bs := rfl
  have hrecd : (wreqFlags cfg d bs).recd = (recOf d bs).isSome := rfl
  have hmul : (wreqFlags cfg d bs).mul = decide (1 < bs.length) := rfl
  have hencdef : (wreqFlags cfg d bs).enc
    = (decide (1 < bs.length) && decide (1 < d.ndim - recDims d bs) && cfg.selEncode) := rfl
  have hed : (if (wreqFlags cfg d bs).recd = true then d.ndim - 1 else d.ndim)
      = d.ndim - recDims d bs := by
    unfold recDims; rw [hrecd]; split <;> rfl
  have hroption : (if (wreqFlags cfg d bs).recd = true then some ((recOf d bs).getD 0) else none)
      = recOf d bs := by
    rw [hrecd]; cases recOf d bs <;> rfl
  -- words of the entry
  let ws := if (wreqFlags cfg d bs).enc then
      ((dsteps d.dims).drop (recDims d bs)).take (d.ndim - recDims d bs - 1)
        ++ encWords (dsteps d.dims) (recDims d bs) bs
    else plainWords (recDims d bs) bs
  have hbytes : (plainReq cfg d did bs mo foff data).bytes
      = (plainReq cfg d did bs mo foff data).hdr.bytes
        ++ (if (plainReq cfg d did bs mo foff data).hdr.flags.recd then leN 8 ((recOf d bs).getD 0) else [])
        ++ (if (plainReq cfg d did bs mo foff data).hdr.flags.mul then leN 4 bs.length else [])
        ++ putWords ws := by
    unfold WReq.bytes
    have : (plainReq cfg d did bs mo foff data).selBuf
        = (if (wreqFlags cfg d bs).mul then leN 4 bs.length else []) ++ putWords ws := by
      show selBytes cfg d bs = _
      unfold selBytes
      simp only [ws, hmul, hencdef]
      congr 1
      show _ = putWords (if _ then _ else _)
      by_cases hc : (decide (1 < bs.length) && decide (1 < d.ndim - recDims d bs) && cfg.selEncode) = true
      · rw [if_pos hc, putWords_append]
        exact if_pos hc
      · rw [if_neg hc]
        exact if_neg hc
    rw [this]
    simp only [List.append_assoc]
    rfl
  rw [hbytes]
  have hposm : 0 < (plainReq cfg d did bs mo foff data).hdr.metaSize := by
    show (0 : Int) < ((plainReq cfg d did bs mo foff data).metaSize : Int)
    unfold WReq.metaSize WReq.selOff hdrSize
    omega
  have hencdim : (wreqFlags cfg d bs).enc = true → 1 < d.ndim - recDims d bs := by
    intro hh; rw [hencdef] at hh; simp at hh; omega
  have hdsl : (((dsteps d.dims).drop (recDims d bs)).take (d.ndim - recDims d bs - 1)).length
      = d.ndim - recDims d bs - 1 := by
    rw [List.length_take, List.length_drop, dsteps_length]
    show min _ (d.ndim - _) = _
    omega
  rw [metaDecode_layout d _ hf hposm (by rw [hfl]; rfl) _ _ ws pre post
    (by
      rw [hfl, hrecd]
      intro hh
      cases hr : recOf d bs with
      | none => rw [hr] at hh; simp at hh
      | some n => exact (recOf_some hr).1)
    (by
      cases hr : recOf d bs with
      | none => simp
      | some n => exact recOf_lt h hr)
    h.len
    (by
      rw [hfl, hmul]
      intro hh
      have := h.ne
      have : 0 < bs.length := List.length_pos_iff.mpr this
      simp at hh
      omega)
    (by
      rw [hfl, hed]
      intro hh
      have := hencdim hh
      omega)
    (by
      rw [hfl, hed]
      simp only [ws]
      split
      · rw [List.length_append, hdsl]
        simp only [encWords, List.length_append, List.length_map]
        omega
      · exact plainWords_length h _)
    (by
      intro w hw
      simp only [ws] at hw
      split at hw
      · rename_i hE
        rcases List.mem_append.mp hw with hw | hw
        · exact (he hE).s64 w (List.mem_of_mem_take hw)
        · exact (he hE).e64 w hw
      · unfold plainWords at hw
        rcases List.mem_append.mp hw with hw | hw
        · obtain ⟨b, hb, hw⟩ := List.mem_flatMap.mp hw
          exact (h.blk b hb).s64 w (List.mem_of_mem_drop hw)
        · obtain ⟨b, hb, hw⟩ := List.mem_flatMap.mp hw
          exact (h.blk b hb).c64 w (List.mem_of_mem_drop hw))
    hent]
  rw [hfl, hed, hroption]
  have hsel : selsOfWords d (wreqFlags cfg d bs).enc (d.ndim - recDims d bs) bs.length (recOf d bs) ws
      = .ok (Spec.sels d.esize bs) := by
    simp only [ws]
    cases hE : (wreqFlags cfg d bs).enc with
    | false => simpa using selsOfWords_plain h
    | true =>
      simp only [if_true]
      exact selsOfWords_enc h (by have := hencdim hE; omega) (he hE)
  rw [hsel]
  simp only [Res.ok_bind]
  rw [decDsize_sels h.ne]
  rfl

end Verif
