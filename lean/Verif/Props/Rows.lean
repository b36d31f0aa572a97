import Verif.Spec.Rows
import Verif.Lemmas.EncExact
import Verif.Props.Bounds

/-
C04, C17, C21: writes of several blocks that span whole dimensions.
-/

namespace Verif.Props

open Spec (AW AFile WriteOK Reach)

theorem dims_pos {d : DInfo} {bs : List Blk} (hs : Spec.SelOK d bs) (hext : ∀ b ∈ bs, Spec.InExtent d.dims b)
    (hne : ∀ b ∈ bs, Spec.NonEmpty b) : ∀ x ∈ d.dims, 0 < x := by
  obtain ⟨b, bs', rfl⟩ := List.exists_cons_of_ne_nil hs.ne
  obtain ⟨h1, h2, h3⟩ := hext b (by simp)
  have h4 := hne b (by simp)
  intro x hx
  obtain ⟨i, hi, rfl⟩ := List.getElem_of_mem hx
  have := h3 i (by omega) (by omega) hi
  have := h4 b.count[i] (List.getElem_mem _)
  omega

/-- The entry of any write inside the extent can be decoded: the number of blocks is kept, and if they are encoded each vector is what its number decodes to. -/
theorem decode_any (cfg : Cfg) (d : DInfo) (did : Nat) (bs : List Blk) (mo foff : Nat) (data : List Byte) (hs : Spec.SelOK d bs)
    (hf : EntryFits cfg d did bs foff data) (hext : ∀ b ∈ bs, Spec.InExtent d.dims b) (hne : ∀ b ∈ bs, Spec.NonEmpty b)
    (hp : d.ndim * prod d.dims < 2 ^ 63) (pre post : List Byte) (hE : (wreqFlags cfg d bs).enc = true) :
    ∃ e, metaDecode d (pre ++ (plainReq cfg d did bs mo foff data).bytes ++ post) pre.length = .ok e ∧ e.sels.length = bs.length ∧
      (∀ i, ∀ (h1 : i < e.sels.length) (h2 : i < bs.length), ∃ c,
        selDecode (dsteps (d.dims.drop (recDims d bs)))
          (selEncode (dsteps (d.dims.drop (recDims d bs))) (bs[i].count.drop (recDims d bs))) = .ok c ∧
        e.sels[i].count = recFix (recOf d bs) 1 c) ∧
      (∀ i, ∀ (h1 : i < e.sels.length) (h2 : i < bs.length), ∃ c,
        selDecode (dsteps (d.dims.drop (recDims d bs)))
          (selEncode (dsteps (d.dims.drop (recDims d bs))) (bs[i].start.drop (recDims d bs))) = .ok c ∧
        e.sels[i].start = recFix (recOf d bs) ((recOf d bs).getD 0) c) ∧
      ∀ i, ∀ (h1 : i < e.sels.length), e.sels[i].doff = d.esize * ((e.sels.take i).map (fun s => prod s.count)).sum := by
  have hpos := dims_pos hs hext hne
  have hc : (decide (1 < bs.length) && decide (1 < d.ndim - recDims d bs) && cfg.selEncode) = true := hE
  simp only [Bool.and_eq_true, decide_eq_true_eq] at hc
  obtain ⟨ms, m1, m2, m3, m4, m5⟩ := selsOfWords_total (bs := bs) hpos (by omega)
  have hlast : ms.getLast? ≠ none := by
    intro hh
    rw [List.getLast?_eq_none_iff] at hh
    rw [hh] at m2
    simp at m2
    omega
  cases hl : ms.getLast? with
  | none => exact absurd hl hlast
  | some s =>
    have hds : decDsize d (d.ndim - recDims d bs) ms = .ok (d.esize * prod (s.count.take (d.ndim - recDims d bs)) + s.doff) := by
      unfold decDsize
      rw [hl]
    refine ⟨⟨(plainReq cfg d did bs mo foff data).hdr, ms, d.esize * prod (s.count.take (d.ndim - recDims d bs)) + s.doff⟩, ?_, m2, m3, m4, m5⟩
    rw [metaDecode_enc hs hE (enc_words_lt _ hext hpos hp) (hf.hdr mo) pre post, m1]
    simp only [Res.ok_bind]
    rw [hds]
    rfl

/-- **C04, exact.** The entry of a write of blocks inside the extent always decodes, and it decodes to the written blocks iff
the blocks are not encoded (one block, or encoding off) or none of them spans a whole dimension, the first and, for writes to one record, the second
not counted. -/
theorem C04_encoding_exact (cfg : Cfg) (d : DInfo) (did : Nat) (bs : List Blk) (mo foff : Nat) (data : List Byte) (hs : Spec.SelOK d bs)
    (hf : EntryFits cfg d did bs foff data) (hext : ∀ b ∈ bs, Spec.InExtent d.dims b) (hne : ∀ b ∈ bs, Spec.NonEmpty b)
    (hp : d.ndim * prod d.dims < 2 ^ 63) (pre post : List Byte) :
    ∃ e, metaDecode d (pre ++ (plainReq cfg d did bs mo foff data).bytes ++ post) pre.length = .ok e ∧
      (e.sels = Spec.sels d.esize bs ↔ cfg.selEncode = false ∨ bs.length = 1 ∨
        ∀ b ∈ bs, Spec.NotFullWidth (if (recOf d bs).isSome then 2 else 1) d.dims b) := by
  have hk : (if (recOf d bs).isSome then 2 else 1) = recDims d bs + 1 := by
    unfold recDims; split <;> rfl
  have hlen : 0 < bs.length := List.length_pos_iff.mpr hs.ne
  rcases Bool.eq_false_or_eq_true (wreqFlags cfg d bs).enc with hE | hE
  · obtain ⟨e, e1, e2, e3, _⟩ := decode_any cfg d did bs mo foff data hs hf hext hne hp pre post hE
    refine ⟨e, e1, fun h => Or.inr (Or.inr ?_), fun h => ?_⟩
    · rw [hk]
      exact notFull_of_sels hs e2 e3 h
    · have hc : (decide (1 < bs.length) && decide (1 < d.ndim - recDims d bs) && cfg.selEncode) = true := hE
      simp only [Bool.and_eq_true, decide_eq_true_eq] at hc
      have hpl : prod d.dims < 2 ^ 63 := Nat.lt_of_le_of_lt (Nat.le_mul_of_pos_left _ (by omega)) hp
      have hnf : ∀ b ∈ bs, Spec.NotFullWidth (if (recOf d bs).isSome then 2 else 1) d.dims b := by
        rcases h with h | h | h
        · rw [h] at hc; exact absurd hc.2 (by simp)
        · omega
        · exact h
      obtain ⟨e', f1, _, _, _, _, f2⟩ := C04_encoding_partial cfg d did bs mo foff data hs hf hext hne hnf hpl pre post
      rw [f1] at e1
      cases e1
      exact f2
  · refine ⟨_, metaDecode_plainReq hs (fun h => absurd h (by rw [hE]; simp)) (hf.hdr mo) pre post rfl, fun _ => ?_, fun _ => rfl⟩
    have hc : (decide (1 < bs.length) && decide (1 < d.ndim - recDims d bs) && cfg.selEncode) = false := hE
    simp only [Bool.and_eq_false_iff, decide_eq_false_iff_not] at hc
    rcases hc with (hc | hc) | hc
    · exact Or.inr (Or.inl (by omega))
    · refine Or.inr (Or.inr (fun b hb i hi h1 h2 => ?_))
      rw [hk] at hi
      have h3 : i < d.ndim := h2
      omega
    · exact Or.inl hc

theorem recFix_count {d : DInfo} {bs : List Blk} {b : Blk} (hb : b ∈ bs) :
    recFix (recOf d bs) 1 (b.count.drop (recDims d bs)) = b.count := by
  obtain ⟨i, hi, rfl⟩ := List.getElem_of_mem hb
  have := congrArg (fun l => l[i]?) (fix_blocks (d := d) (bs := bs)).2
  simpa [hi] using this

theorem recFix_start {d : DInfo} {bs : List Blk} {b : Blk} (hb : b ∈ bs) :
    recFix (recOf d bs) ((recOf d bs).getD 0) (b.start.drop (recDims d bs)) = b.start := by
  obtain ⟨i, hi, rfl⟩ := List.getElem_of_mem hb
  have := congrArg (fun l => l[i]?) (fix_blocks (d := d) (bs := bs)).1
  simpa [hi] using this

theorem spansWhole_iff {k : Nat} {dims : List Nat} {b : Blk} : Spec.spansWhole k dims b = false ↔ Spec.NotFullWidth k dims b := by
  unfold Spec.spansWhole Spec.NotFullWidth
  rw [List.any_eq_false]
  constructor
  · intro h i hi h1 h2
    have := h (b.count[i], dims[i]) (List.mem_drop_iff_getElem.mpr ⟨i - k, by simp; omega, by simp [Nat.add_sub_cancel' hi]⟩)
    simpa using this
  · intro h p hp
    obtain ⟨j, hj, rfl⟩ := List.mem_drop_iff_getElem.mp hp
    simp at hj
    simpa using h (k + j) (by omega) (by omega) (by omega)

/-- **C04, block by block: what is lost.** With selection encoding, whenever several blocks inside the extent are written together (in a dataset of at least two dimensions, three
for writes to one record), every block keeps its start; a block that spans no whole dimension, the first and, for writes to one record, the second not counted, keeps its
count; any other block is recorded with no cells at all, so that no read finds its data; and the data of each block are looked for after those of
the kept blocks before it only, not where they are. -/
theorem C04_rows_violated (share : Bool) (d : DInfo) (did : Nat) (bs : List Blk) (mo foff : Nat) (data : List Byte) (hs : Spec.SelOK d bs)
    (hf : EntryFits ⟨true, share⟩ d did bs foff data) (hext : ∀ b ∈ bs, Spec.InExtent d.dims b) (hne : ∀ b ∈ bs, Spec.NonEmpty b)
    (hp : d.ndim * prod d.dims < 2 ^ 63) (pre post : List Byte) (hm : 1 < bs.length) (hd : (if (recOf d bs).isSome then 2 else 1) < d.ndim) :
    ∃ e, metaDecode d (pre ++ (plainReq ⟨true, share⟩ d did bs mo foff data).bytes ++ post) pre.length = .ok e ∧ e.sels.length = bs.length ∧
      ∀ i, ∀ (hi : i < bs.length), ∃ s, e.sels[i]? = some s ∧ s.start = bs[i].start ∧
        (Spec.spansWhole (if (recOf d bs).isSome then 2 else 1) d.dims bs[i] = false → s.count = bs[i].count) ∧
        (Spec.spansWhole (if (recOf d bs).isSome then 2 else 1) d.dims bs[i] = true → prod s.count = 0) ∧
        s.doff = d.esize * (((bs.take i).filter (fun b => ! Spec.spansWhole (if (recOf d bs).isSome then 2 else 1) d.dims b)).map
          (fun b => prod b.count)).sum := by
  have hk : (if (recOf d bs).isSome then 2 else 1) = recDims d bs + 1 := by
    unfold recDims; split <;> rfl
  rw [hk] at hd ⊢
  have hE : (wreqFlags ⟨true, share⟩ d bs).enc = true := by
    show (decide (1 < bs.length) && decide (1 < d.ndim - recDims d bs) && true) = true
    simp only [Bool.and_eq_true, decide_eq_true_eq]
    exact ⟨⟨hm, by omega⟩, trivial⟩
  obtain ⟨e, e1, e2, e3, e4, e5⟩ := decode_any _ d did bs mo foff data hs hf hext hne hp pre post hE
  have hcnt : ∀ i, ∀ (hi : i < bs.length) (hi' : i < e.sels.length),
      (Spec.spansWhole (recDims d bs + 1) d.dims bs[i] = false → e.sels[i].count = bs[i].count) ∧
      (Spec.spansWhole (recDims d bs + 1) d.dims bs[i] = true → prod e.sels[i].count = 0) := by
    intro i hi hi'
    obtain ⟨c, c1, c2⟩ := e3 i hi' hi
    have hb := hs.blk _ (List.getElem_mem hi)
    obtain ⟨x1, x2, x3⟩ := hext _ (List.getElem_mem hi)
    refine ⟨fun h => ?_, fun h => ?_⟩
    · have h1 := selDecode_selEncode (ds := d.dims.drop (recDims d bs)) (cs := bs[i].count.drop (recDims d bs))
        (by simp only [List.length_drop]; omega) (digits_drop_tail (by omega) (spansWhole_iff.mp h))
      rw [h1] at c1
      cases c1
      rw [c2]
      exact recFix_count (List.getElem_mem hi)
    · rw [c2]
      refine prod_zero_of_mem ?_
      have h0 : 0 ∈ c := selDecode_lost (by simp only [List.length_drop]; omega) (fun j a1 a2 => by
        simp only [List.length_drop] at a1 a2
        simp only [List.getElem_drop]
        have := x3 (recDims d bs + j) (by omega) (by omega) (by omega)
        omega) (fun hh => by
          have : Spec.NotFullWidth (recDims d bs + 1) d.dims bs[i] := by
            refine recFix_digits (x := 1) (c := bs[i].count.drop (recDims d bs)) hb.hc (recFix_count (List.getElem_mem hi)) hh
          rw [spansWhole_iff.mpr this] at h
          simp at h) c1
      unfold recFix
      split
      · exact List.mem_cons_of_mem _ h0
      · exact h0
  refine ⟨e, e1, e2, fun i hi => ⟨e.sels[i], List.getElem?_eq_getElem (by omega), ?_, (hcnt i hi (by omega)).1, (hcnt i hi (by omega)).2, ?_⟩⟩
  · obtain ⟨c, c1, c2⟩ := e4 i (by omega) hi
    obtain ⟨x1, x2, x3⟩ := hext _ (List.getElem_mem hi)
    have x4 := hne _ (List.getElem_mem hi)
    have h1 := selDecode_selEncode (ds := d.dims.drop (recDims d bs)) (cs := bs[i].start.drop (recDims d bs))
      (by simp only [List.length_drop]; omega) (digits_drop_tail (by omega) (fun j _ a1 a2 => by
        have := x3 j (by omega) (by omega) a2
        have := x4 _ (List.getElem_mem (show j < bs[i].count.length by omega))
        omega))
    rw [h1] at c1
    cases c1
    rw [c2]
    exact recFix_start (List.getElem_mem hi)
  · rw [e5 i (by omega)]
    refine congrArg (d.esize * ·) ?_
    clear e1 e3 e4 e5
    have key : ∀ i, i ≤ bs.length → ((e.sels.take i).map (fun s => prod s.count)).sum =
        (((bs.take i).filter (fun b => ! Spec.spansWhole (recDims d bs + 1) d.dims b)).map (fun b => prod b.count)).sum := by
      intro i hi
      induction i with
      | zero => simp
      | succ i ih =>
        have hi2 : i < bs.length := hi
        have hi3 : i < e.sels.length := by omega
        rw [List.take_succ_eq_append_getElem hi2, List.take_succ_eq_append_getElem hi3, List.map_append, List.sum_append,
          List.filter_append, List.map_append, List.sum_append, ih (by omega)]
        refine congrArg (_ + ·) ?_
        rcases Bool.eq_false_or_eq_true (Spec.spansWhole (recDims d bs + 1) d.dims bs[i]) with h | h
        · simp [h, (hcnt i hi2 hi3).2 h]
        · simp [h, (hcnt i hi2 hi3).1 h]
    exact key i (by omega)

/-- Two of four rows of a 4 x 4 dataset. -/
def rwD : DInfo := ⟨[4, 4], [some 4, some 4], 1⟩
def rwB : List Blk := [⟨[0, 0], [1, 4]⟩, ⟨[2, 0], [1, 4]⟩]
def rwW : AW := ⟨0, rwD, rwB, [1, 2, 3, 4, 5, 6, 7, 8]⟩
def rwQ : RReq := ⟨0, rwD, [⟨[0, 0], [1, 1]⟩], 100⟩
def rwFile (share compact : Bool) : FState := (FState.create ⟨true, share⟩ compact none 1 (fun _ => 0)).addDset rwD

/-- **C17 is violated.** In a new file with one 4 x 4 dataset, one `H5Dwrite_n` of rows 0 and 2 succeeds, and a read of cell (0, 0) succeeds and returns what the buffer
held or the fill value; after the two writes of its blocks the read returns the value written. -/
theorem C17_write_n_violated (share compact : Bool) : ∃ st1 st2 st3 st4 st5,
    (rwFile share compact).write 0 0 rwW.bs rwW.data = .ok st1 ∧ st1.prepare fileMode 1000 2000 = .ok st2 ∧
    Spec.splitWrite rwW = [⟨0, rwD, [⟨[0, 0], [1, 4]⟩], [1, 2, 3, 4]⟩, ⟨0, rwD, [⟨[2, 0], [1, 4]⟩], [5, 6, 7, 8]⟩] ∧
    (rwFile share compact).write 0 0 [⟨[0, 0], [1, 4]⟩] [1, 2, 3, 4] = .ok st3 ∧ st3.write 0 0 [⟨[2, 0], [1, 4]⟩] [5, 6, 7, 8] = .ok st4 ∧
    st4.prepare fileMode 1000 2000 = .ok st5 ∧ ∀ fuel,
      (∀ out, st2.reads fuel 0 (fun _ => none) [rwQ] (fun _ => 9) out → ∃ m, out = .ok m ∧ m 100 = 9) ∧
      (∀ out, st2.reads fuel 0 (fun _ => some [0]) [rwQ] (fun _ => 9) out → ∃ m, out = .ok m ∧ m 100 = 0) ∧
      ∀ fill out, (fill = (fun _ => none) ∨ fill = fun _ => some [0]) → st5.reads fuel 0 fill [rwQ] (fun _ => 9) out → ∃ m, out = .ok m ∧ m 100 = 1 := by
  have h : ∀ share compact, okWith (fun st1 => okWith (fun st2 => okWith (fun st3 => okWith (fun st4 => okWith (fun st5 =>
        decide (st2.mbuf = none) && decide (st5.mbuf = none) &&
        okWith (fun raw => sortedB raw.1 && (okWith (fun m => decide (m 100 = 9))
          (readHitsF st2.disk raw.1 (prefill (fun _ => none) [rwQ] (fun _ => 9))) && okWith (fun m => decide (m 100 = 0))
          (readHitsF st2.disk raw.1 (prefill (fun _ => some [0]) [rwQ] (fun _ => 9))))) (st2.search 0 0 [rwQ]) &&
        okWith (fun raw => sortedB raw.1 && (okWith (fun m => decide (m 100 = 1))
          (readHitsF st5.disk raw.1 (prefill (fun _ => none) [rwQ] (fun _ => 9))) && okWith (fun m => decide (m 100 = 1))
          (readHitsF st5.disk raw.1 (prefill (fun _ => some [0]) [rwQ] (fun _ => 9))))) (st5.search 0 0 [rwQ]))
        (st4.prepare fileMode 1000 2000)) (st3.write 0 0 [⟨[2, 0], [1, 4]⟩] [5, 6, 7, 8]))
        ((rwFile share compact).write 0 0 [⟨[0, 0], [1, 4]⟩] [1, 2, 3, 4]))
        (st1.prepare fileMode 1000 2000)) ((rwFile share compact).write 0 0 rwW.bs rwW.data) = true := by decide +kernel
  obtain ⟨st1, a1, a2⟩ := okWith_iff (h share compact)
  obtain ⟨st2, b1, b2⟩ := okWith_iff a2
  obtain ⟨st3, c1, c2⟩ := okWith_iff b2
  obtain ⟨st4, d1, d2⟩ := okWith_iff c2
  obtain ⟨st5, e1, e2⟩ := okWith_iff d2
  simp only [Bool.and_eq_true, decide_eq_true_eq] at e2
  obtain ⟨⟨⟨f1, f2⟩, f3⟩, f4⟩ := e2
  refine ⟨st1, st2, st3, st4, st5, a1, b1, by decide, c1, d1, e1, fun fuel => ?_⟩
  obtain ⟨⟨raw, st'⟩, s1, s2⟩ := okWith_iff f3
  obtain ⟨⟨raw', st''⟩, t1, t2⟩ := okWith_iff f4
  simp only [Bool.and_eq_true] at s2 t2
  rw [search_fuel f1 0 fuel] at s1
  rw [search_fuel f2 0 fuel] at t1
  obtain ⟨m, m1, m2⟩ := okWith_iff s2.2.1
  obtain ⟨n, n1, n2⟩ := okWith_iff s2.2.2
  obtain ⟨m', m3, m4⟩ := okWith_iff t2.2.1
  obtain ⟨n', n3, n4⟩ := okWith_iff t2.2.2
  refine ⟨fun out ho => ⟨m, ((reads_unique s1 s2.1).mp ho).trans (readHitsF_eq m1), by simpa using m2⟩,
    fun out ho => ⟨n, ((reads_unique s1 s2.1).mp ho).trans (readHitsF_eq n1), by simpa using n2⟩, fun fill out hf ho => ?_⟩
  rcases hf with rfl | rfl
  · exact ⟨m', ((reads_unique t1 t2.1).mp ho).trans (readHitsF_eq m3), by simpa using m4⟩
  · exact ⟨n', ((reads_unique t1 t2.1).mp ho).trans (readHitsF_eq n3), by simpa using n4⟩

/-- **C21 is violated.** After the same write the file is closed and opened again, both with success, and a read of cell (0, 0) succeeds and returns the fill value instead of
the value written before the close. -/
theorem C21_close_violated (share compact : Bool) : ∃ st1 st2,
    (rwFile share compact).write 0 0 rwW.bs rwW.data = .ok st1 ∧ st1.close 1000 2000 = .ok st2 ∧
    Spec.lastByte [rwW] 0 [0, 0] 0 = some 1 ∧ ∀ fuel out,
      (st2.reopen 1 compact none (fun _ => false)).reads fuel 0 (fun _ => some [0]) [rwQ] (fun _ => 9) out → ∃ m, out = .ok m ∧ m 100 = 0 := by
  have h : ∀ share compact, okWith (fun st1 => okWith (fun st2 =>
        okWith (fun raw => sortedB raw.1 && okWith (fun m => decide (m 100 = 0))
          (readHitsF (st2.reopen 1 compact none (fun _ => false)).disk raw.1 (prefill (fun _ => some [0]) [rwQ] (fun _ => 9))))
          ((st2.reopen 1 compact none (fun _ => false)).search 0 0 [rwQ]))
        (st1.close 1000 2000)) ((rwFile share compact).write 0 0 rwW.bs rwW.data) = true := by decide +kernel
  obtain ⟨st1, a1, a2⟩ := okWith_iff (h share compact)
  obtain ⟨st2, b1, b2⟩ := okWith_iff a2
  refine ⟨st1, st2, a1, b1, by decide, fun fuel out ho => ?_⟩
  obtain ⟨⟨raw, st'⟩, s1, s2⟩ := okWith_iff b2
  rw [Bool.and_eq_true] at s2
  obtain ⟨m, m1, m2⟩ := okWith_iff s2.2
  rw [search_fuel rfl 0 fuel] at s1
  exact ⟨m, ((reads_unique s1 s2.1).mp ho).trans (readHitsF_eq m1), by simpa using m2⟩

/-- Row 0 and the first two cells of row 2. -/
def rxW : AW := ⟨0, rwD, [⟨[0, 0], [1, 4]⟩, ⟨[2, 0], [1, 2]⟩], [1, 2, 3, 4, 5, 6]⟩
def rxQ : RReq := ⟨0, rwD, [⟨[2, 0], [1, 1]⟩], 100⟩

/-- **C17 is violated: values of other cells.** One `H5Dwrite_n` of row 0 and of two cells of row 2 succeeds, and a read of cell (2, 0) succeeds and returns the value written to
cell (0, 0), whether or not there is a fill value, in the same session and after closing and reopening the file. -/
theorem C17_wrong_cell_violated (share compact : Bool) : ∃ st1 st2 st3,
    (rwFile share compact).write 0 0 rxW.bs rxW.data = .ok st1 ∧ st1.prepare fileMode 1000 2000 = .ok st2 ∧ st1.close 1000 2000 = .ok st3 ∧
    Spec.lastByte [rxW] 0 [2, 0] 0 = some 5 ∧ Spec.lastByte [rxW] 0 [0, 0] 0 = some 1 ∧
    ∀ fuel fill out, (fill = (fun _ => none) ∨ fill = fun _ => some [0]) →
      (st2.reads fuel 0 fill [rxQ] (fun _ => 9) out ∨
        (st3.reopen 1 compact none (fun _ => false)).reads fuel 0 fill [rxQ] (fun _ => 9) out) → ∃ m, out = .ok m ∧ m 100 = 1 := by
  have h : ∀ share compact, okWith (fun st1 => okWith (fun st2 => okWith (fun st3 =>
        decide (st2.mbuf = none) &&
        okWith (fun raw => sortedB raw.1 && (okWith (fun m => decide (m 100 = 1))
          (readHitsF st2.disk raw.1 (prefill (fun _ => none) [rxQ] (fun _ => 9))) && okWith (fun m => decide (m 100 = 1))
          (readHitsF st2.disk raw.1 (prefill (fun _ => some [0]) [rxQ] (fun _ => 9))))) (st2.search 0 0 [rxQ]) &&
        okWith (fun raw => sortedB raw.1 && (okWith (fun m => decide (m 100 = 1))
          (readHitsF (st3.reopen 1 compact none (fun _ => false)).disk raw.1 (prefill (fun _ => none) [rxQ] (fun _ => 9))) &&
          okWith (fun m => decide (m 100 = 1))
          (readHitsF (st3.reopen 1 compact none (fun _ => false)).disk raw.1 (prefill (fun _ => some [0]) [rxQ] (fun _ => 9)))))
          ((st3.reopen 1 compact none (fun _ => false)).search 0 0 [rxQ]))
        (st1.close 1000 2000)) (st1.prepare fileMode 1000 2000)) ((rwFile share compact).write 0 0 rxW.bs rxW.data) = true := by decide +kernel
  obtain ⟨st1, a1, a2⟩ := okWith_iff (h share compact)
  obtain ⟨st2, b1, b2⟩ := okWith_iff a2
  obtain ⟨st3, c1, c2⟩ := okWith_iff b2
  simp only [Bool.and_eq_true, decide_eq_true_eq] at c2
  obtain ⟨⟨f1, f2⟩, f3⟩ := c2
  refine ⟨st1, st2, st3, a1, b1, c1, by decide, by decide, fun fuel fill out hf ho => ?_⟩
  obtain ⟨⟨raw, st'⟩, s1, s2⟩ := okWith_iff f2
  obtain ⟨⟨raw', st''⟩, t1, t2⟩ := okWith_iff f3
  simp only [Bool.and_eq_true] at s2 t2
  rw [search_fuel f1 0 fuel] at s1
  rw [search_fuel rfl 0 fuel] at t1
  obtain ⟨m, m1, m2⟩ := okWith_iff s2.2.1
  obtain ⟨n, n1, n2⟩ := okWith_iff s2.2.2
  obtain ⟨m', m3, m4⟩ := okWith_iff t2.2.1
  obtain ⟨n', n3, n4⟩ := okWith_iff t2.2.2
  rcases hf with rfl | rfl <;> rcases ho with ho | ho
  · exact ⟨m, ((reads_unique s1 s2.1).mp ho).trans (readHitsF_eq m1), by simpa using m2⟩
  · exact ⟨m', ((reads_unique t1 t2.1).mp ho).trans (readHitsF_eq m3), by simpa using m4⟩
  · exact ⟨n, ((reads_unique s1 s2.1).mp ho).trans (readHitsF_eq n1), by simpa using n2⟩
  · exact ⟨n', ((reads_unique t1 t2.1).mp ho).trans (readHitsF_eq n3), by simpa using n4⟩

/-! ### Concrete cases -/

/-- Hypotheses of `C04_encoding_exact` and `C04_rows_violated`: rows 0 and 2. -/
example (share : Bool) : Spec.SelOK rwD rwB ∧ EntryFits ⟨true, share⟩ rwD 0 rwB 4096 rwW.data ∧ (∀ b ∈ rwB, Spec.InExtent rwD.dims b) ∧
    (∀ b ∈ rwB, Spec.NonEmpty b) ∧ rwD.ndim * prod rwD.dims < 2 ^ 63 ∧ 1 < rwB.length ∧
    (if (recOf rwD rwB).isSome then 2 else 1) < rwD.ndim ∧ Spec.spansWhole 1 rwD.dims rwB[0] = true := by
  refine ⟨⟨by simp [rwB], by simp [rwB], ?_⟩, ⟨?_, by decide, by decide, by decide⟩, ?_, ?_, by decide, by decide, by decide, by decide⟩
  · intro b hb
    simp [rwB] at hb
    rcases hb with rfl | rfl <;> constructor <;> decide
  · cases share <;> decide
  · intro b hb
    simp [rwB] at hb
    rcases hb with rfl | rfl <;> simp [Spec.inExtent_cons, Spec.inExtent_nil, rwD]
  · intro b hb
    simp [rwB] at hb
    rcases hb with rfl | rfl <;> unfold Spec.NonEmpty <;> decide

end Verif.Props
