import Verif.Lemmas.EncOK

/-
C03 (metadata entry round trip) and C04 (selection encoding).
-/

namespace Verif.Props

open Verif

/-- The metadata of one write: at most 2^31-1 bytes, 31-bit dataset id, 63-bit offsets. -/
structure EntryFits (cfg : Cfg) (d : DInfo) (did : Nat) (bs : List Blk) (foff : Nat)
    (data : List Byte) : Prop where
  sz : (plainReq cfg d did bs 0 foff data).bytes.length < 2 ^ 31
  did : did < 2 ^ 31
  foff : foff < 2 ^ 63
  fsize : data.length < 2 ^ 63

theorem metaSize_eq_length (r : WReq) : r.metaSize = r.bytes.length := by
  unfold WReq.metaSize WReq.bytes WReq.selOff
  split <;> simp [hdrSize] <;> omega

theorem EntryFits.hdr {cfg : Cfg} {d : DInfo} {did : Nat} {bs : List Blk} {foff : Nat}
    {data : List Byte} (h : EntryFits cfg d did bs foff data) (mo : Nat) :
    (plainReq cfg d did bs mo foff data).hdr.Fits := by
  have h1 := h.sz
  rw [← metaSize_eq_length] at h1
  have h2 := h.did
  have h3 := h.foff
  have h4 := h.fsize
  have e : (plainReq cfg d did bs mo foff data).metaSize = (plainReq cfg d did bs 0 foff data).metaSize := rfl
  constructor <;> simp only [WReq.hdr]
  · omega
  · rw [e]; omega
  · show -(2:Int) ^ 31 ≤ (did : Int); omega
  · show (did : Int) < (2:Int) ^ 31; omega
  · show -(2:Int) ^ 63 ≤ (foff : Int); omega
  · show (foff : Int) < (2:Int) ^ 63; omega
  · show -(2:Int) ^ 63 ≤ (data.length : Int); omega
  · show (data.length : Int) < (2:Int) ^ 63; omega

/-- **C03.** Plain format: whatever surrounds the entry in the metadata buffer, decoding it returns
the dataset id, file offset, data size, the number of bytes to the next entry, and exactly the
written blocks in order, each with the offset of its data. -/
theorem C03_entry_roundtrip (cfg : Cfg) (hcfg : cfg.selEncode = false) (d : DInfo) (did : Nat)
    (bs : List Blk) (mo foff : Nat) (data : List Byte) (hs : Spec.SelOK d bs)
    (hf : EntryFits cfg d did bs foff data) (pre post : List Byte) :
    ∃ e, metaDecode d (pre ++ (plainReq cfg d did bs mo foff data).bytes ++ post) pre.length = .ok e ∧
      e.hdr.did = did ∧ e.hdr.foff = foff ∧ e.hdr.fsize = data.length ∧
      e.hdr.metaSize = (plainReq cfg d did bs mo foff data).bytes.length ∧
      e.sels = Spec.sels d.esize bs := by
  refine ⟨_, metaDecode_plainReq hs ?_ (hf.hdr mo) pre post rfl, rfl, rfl, rfl, ?_, rfl⟩
  · intro h; simp [wreqFlags, hcfg] at h
  · exact congrArg Int.ofNat (metaSize_eq_length _)

/-- The unfiltered size recovered for a write that is not confined to one record: the total number
of bytes of the data. -/
theorem C03_entry_datasize_partial (cfg : Cfg) (hcfg : cfg.selEncode = false) (d : DInfo) (did : Nat)
    (bs : List Blk) (mo foff : Nat) (data : List Byte) (hs : Spec.SelOK d bs)
    (hf : EntryFits cfg d did bs foff data) (hr : recOf d bs = none) (pre post : List Byte) :
    ∃ e, metaDecode d (pre ++ (plainReq cfg d did bs mo foff data).bytes ++ post) pre.length = .ok e ∧
      e.dsize = d.esize * (bs.map Blk.size).sum := by
  refine ⟨_, metaDecode_plainReq hs ?_ (hf.hdr mo) pre post rfl, ?_⟩
  · intro h; simp [wreqFlags, hcfg] at h
  · show specDsize d bs = _
    have hpos : 0 < bs.length := List.length_pos_iff.mpr hs.ne
    have hl : (Spec.sels d.esize bs).getLast? =
        some { start := bs[bs.length - 1].start, count := bs[bs.length - 1].count,
               doff := Spec.dataOffset d.esize bs (bs.length - 1) } := by
      have hlt : bs.length - 1 < bs.length := by omega
      rw [List.getLast?_eq_getElem?]
      simp only [Spec.sels, List.length_mapIdx, List.getElem?_mapIdx, List.getElem?_eq_getElem hlt,
        Option.map_some]
    unfold specDsize
    rw [hl]
    simp only [recDims, hr, Option.isSome_none, Bool.false_eq_true, if_false, Nat.sub_zero]
    have hc : (bs[bs.length - 1]).count.length = d.ndim := (hs.blk _ (List.getElem_mem _)).hc
    rw [List.take_of_length_le (by omega)]
    unfold Spec.dataOffset
    have : bs = bs.take (bs.length - 1) ++ [bs[bs.length - 1]] := by
      rw [List.take_append_getElem (by omega)]
      rw [List.take_of_length_le (by omega)]
    conv => rhs; rw [this]
    rw [List.map_append, List.sum_append, Nat.mul_add]
    simp [Blk.size]
    omega

/-- The unfiltered size is wrong for record writes: one record of 3 x 7 four-byte elements is
reported as 4 * 1 * 3 bytes (the last dimension is left out). -/
theorem C03_entry_datasize_violated :
    ∃ (d : DInfo) (bs : List Blk) (e : MEnt), Spec.SelOK d bs ∧
      metaDecode d (plainReq ⟨false, false⟩ d 0 bs 0 0 []).bytes 0 = .ok e ∧
      e.dsize ≠ d.esize * (bs.map Blk.size).sum := by
  refine ⟨⟨[5, 3, 7], [none, some 3, some 7], 4⟩, [⟨[2, 0, 0], [1, 3, 7]⟩],
    ⟨⟨68, 0, ⟨false, false, false, false, true⟩, 0, 0⟩, [⟨[2, 0, 0], [1, 3, 7], 0⟩], 12⟩, ?_, ?_, ?_⟩
  · constructor
    · simp
    · simp
    · intro b hb
      simp at hb; subst hb
      constructor <;> decide
  · decide
  · decide

/-- **C04, numbers.** A coordinate vector survives encoding iff every coordinate but the first is
smaller than the extent of its dimension. -/
theorem C04_code_roundtrip_iff (dims cs : List Nat) (hl : cs.length = dims.length) :
    selDecode (dsteps dims) (selEncode (dsteps dims) cs) = .ok cs ↔
      ∀ i, 1 ≤ i → ∀ (h1 : i < cs.length) (h2 : i < dims.length), cs[i] < dims[i] := by
  constructor
  · intro h i hi h1 h2
    have := (digits_iff.mp (selDecode_tail_digits h)).2 (i - 1) (by simp; omega) (by simp; omega)
    simp only [List.getElem_tail] at this
    have e : i - 1 + 1 = i := by omega
    simpa only [e] using this
  · intro h
    apply selDecode_selEncode hl
    have := digits_drop_tail (r := 0) hl (by simpa using h)
    simpa using this

/-- **C04 (partial).** With selection encoding on, the entry of a write decodes to the written
blocks provided no block spans a whole dimension (other than the first encoded one).
Missing: blocks that do span a whole dimension, see `C04_encoding_violated`. -/
theorem C04_encoding_partial (cfg : Cfg) (d : DInfo) (did : Nat)
    (bs : List Blk) (mo foff : Nat) (data : List Byte) (hs : Spec.SelOK d bs)
    (hf : EntryFits cfg d did bs foff data)
    (hext : ∀ b ∈ bs, Spec.InExtent d.dims b) (hne : ∀ b ∈ bs, Spec.NonEmpty b)
    (hnf : ∀ b ∈ bs, Spec.NotFullWidth (if (recOf d bs).isSome then 2 else 1) d.dims b)
    (hp : prod d.dims < 2 ^ 63) (pre post : List Byte) :
    ∃ e, metaDecode d (pre ++ (plainReq cfg d did bs mo foff data).bytes ++ post) pre.length = .ok e ∧
      e.hdr.did = did ∧ e.hdr.foff = foff ∧ e.hdr.fsize = data.length ∧
      e.hdr.metaSize = (plainReq cfg d did bs mo foff data).bytes.length ∧
      e.sels = Spec.sels d.esize bs := by
  refine ⟨_, metaDecode_plainReq hs ?_ (hf.hdr mo) pre post rfl, rfl, rfl, rfl, ?_, rfl⟩
  · intro _
    refine encOK_of_extent hext hne (fun b hb => ?_) hs.ne hp
    have := hnf b hb
    unfold recDims
    split at this
    · rename_i hh; simpa [hh] using this
    · rename_i hh; simpa [hh] using this
  · exact congrArg Int.ofNat (metaSize_eq_length _)

/-- **C04 is violated.** A 4x5 dataset with the default configuration: writing rows 0 and 2 in full
(two blocks inside the extent) records an entry that decodes to other blocks. -/
theorem C04_encoding_violated :
    ∃ (d : DInfo) (bs : List Blk) (e : MEnt), Spec.SelOK d bs ∧
      (∀ b ∈ bs, Spec.InExtent d.dims b) ∧ (∀ b ∈ bs, Spec.NonEmpty b) ∧
      metaDecode d (plainReq ⟨true, true⟩ d 0 bs 0 0 []).bytes 0 = .ok e ∧
      e.sels ≠ Spec.sels d.esize bs := by
  refine ⟨⟨[4, 5], [some 4, some 5], 1⟩, [⟨[0, 0], [1, 5]⟩, ⟨[2, 0], [1, 5]⟩],
    ⟨⟨72, 0, ⟨true, true, false, false, false⟩, 0, 0⟩,
      [⟨[0, 0], [2, 0], 0⟩, ⟨[2, 0], [2, 0], 0⟩], 0⟩, ?_, ?_, ?_, ?_, ?_⟩
  · constructor
    · simp
    · simp
    · intro b hb
      simp at hb
      rcases hb with rfl | rfl <;> constructor <;> decide
  · intro b hb
    simp at hb
    rcases hb with rfl | rfl <;> simp [Spec.inExtent_cons, Spec.inExtent_nil]
  · intro b hb
    simp at hb
    rcases hb with rfl | rfl <;> unfold Spec.NonEmpty <;> decide
  · decide
  · decide

/-! Non-vacuity: a three-block, two-dimensional selection meets the hypotheses of C03 and of
C04_encoding_partial. -/
section Examples

def exD : DInfo := ⟨[4, 6], [some 4, some 6], 4⟩
def exB : List Blk := [⟨[0, 1], [2, 3]⟩, ⟨[2, 2], [1, 4]⟩, ⟨[3, 0], [1, 5]⟩]

example : Spec.SelOK exD exB ∧ EntryFits ⟨true, true⟩ exD 3 exB 4096 [1, 2, 3] ∧
    (∀ b ∈ exB, Spec.InExtent exD.dims b) ∧ (∀ b ∈ exB, Spec.NonEmpty b) ∧
    (∀ b ∈ exB, Spec.NotFullWidth (if (recOf exD exB).isSome then 2 else 1) exD.dims b) := by
  refine ⟨⟨by simp [exB], by simp [exB], ?_⟩, ⟨by decide, by decide, by decide, by decide⟩, ?_, ?_, ?_⟩
  · intro b hb
    simp [exB] at hb
    rcases hb with rfl | rfl | rfl <;> constructor <;> decide
  · intro b hb
    simp [exB] at hb
    rcases hb with rfl | rfl | rfl <;> simp [Spec.inExtent_cons, Spec.inExtent_nil, exD]
  · intro b hb
    simp [exB] at hb
    rcases hb with rfl | rfl | rfl <;> unfold Spec.NonEmpty <;> decide
  · intro b hb
    have : (recOf exD exB).isSome = false := by decide
    simp only [this]
    simp [exB] at hb
    rcases hb with rfl | rfl | rfl <;>
      simp [exD, Spec.notFullWidth_cons, Spec.notFullWidth_zero_cons, Spec.notFullWidth_nil]

end Examples

end Verif.Props
