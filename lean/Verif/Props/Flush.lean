import Verif.Lemmas.FlushTile
import Verif.Props.Meta
import Verif.Lemmas.LoadTrace

/-
C08 (bounded metadata loading), C09 (placement of data), C10 (writes are written once), C11 (section map).
-/

namespace Verif.Props

open Spec (AW AFile WriteOK MayWrite Fresh Small Indexable Served ReqsOK Reach SectionMap secStart Tiles flushedNow
  loadTrace)

/-! ### C09 -/

/-- **C09.** For every state: a flush that succeeds and has something to write adds one log dataset; the
ranges given to the requests follow each other in the order of processes and, for each process, in the
order they were made, without gaps or overlap, from the start of the log dataset to its end; the requests
are otherwise the pending ones; each range holds the data of its request and the rest of the file is
unchanged. -/
theorem C09_flush_tiles (st st' : FState) (doff : Nat) (hn : ∀ k ∈ st.ranks, k.nflushed ≤ k.wreqs.length)
    (h : st.flush doff = .ok st') (h0 : ∃ k ∈ st.ranks, ∃ r ∈ k.pending, r.data ≠ []) :
    ∃ size, st'.lds = st.lds ++ [⟨doff, size⟩] ∧
      Tiles doff ((flushedNow st st').map (fun r => (r.foff, r.data.length))) (doff + size : Nat) ∧
      (flushedNow st st').map (fun r => { r with foff := 0 }) =
        (st.ranks.flatMap Rank.pending).map (fun r => { r with foff := 0 }) ∧
      (∀ r ∈ flushedNow st st', ∀ i, ∀ hi : i < r.data.length, st'.disk (r.foff.toNat + i) = r.data[i]) ∧
      (∀ x, (x < doff ∨ doff + size ≤ x) → st'.disk x = st.disk x) ∧
      st'.ranks.length = st.ranks.length ∧ ∀ k ∈ st'.ranks, k.pending = [] := by
  obtain ⟨k0, hk0, r0, hr0, hd0⟩ := h0
  have hpos : (st.ranks.map Rank.localSize).sum ≠ 0 := by
    intro hz
    have h1 := sum_eq_zero.mp hz _ (List.mem_map_of_mem hk0)
    unfold Rank.localSize at h1
    have h2 := sum_eq_zero.mp h1 _ (List.mem_map.mpr ⟨r0, hr0, rfl⟩)
    exact hd0 (List.length_eq_zero_iff.mp h2)
  unfold FState.flush at h
  split at h
  swap
  · simp at h
  simp only at h
  rw [if_neg hpos] at h
  simp only [Res.ok.injEq] at h
  have ht := flush_tiles st.ranks hn 0 doff
  have hs := flush_same_reqs st.ranks hn 0 doff
  have hfn : flushedNow st st' = (List.zipWith (fun k k' => k'.wreqs.drop k.nflushed) st.ranks
      (List.zipWith (fun k off => k.flushAt (off + doff)) st.ranks
        (exscan 0 (st.ranks.map Rank.localSize)))).flatten := by
    rw [← h]; rfl
  rw [← hfn, Nat.zero_add] at ht
  rw [← hfn] at hs
  have hdata : st.ranks.flatMap (fun k => k.pending.flatMap (fun r => r.data)) =
      (flushedNow st st').flatMap (fun r => r.data) := by
    have e := congrArg (List.flatMap (fun r : WReq => r.data)) hs
    rw [List.flatMap_map, List.flatMap_map] at e
    rw [e, List.flatMap_assoc]
  have hdisk : st'.disk = writeAt st.disk doff ((flushedNow st st').flatMap (fun r => r.data)) := by
    have e1 : st.ranks.map Rank.localSize =
        st.ranks.map (fun k => (k.pending.flatMap (fun r => r.data)).length) := by
      apply List.map_congr_left
      intro k _
      simp [Rank.localSize, List.length_flatMap]
    have := foldl_writeAt (fun k : Rank => k.pending.flatMap (fun r => r.data)) doff st.ranks 0 st.disk
    rw [← e1, Nat.zero_add, hdata] at this
    rw [← this, ← h]
  have hlen : ((flushedNow st st').flatMap (fun r => r.data)).length = (st.ranks.map Rank.localSize).sum := by
    rw [← hdata, List.length_flatMap]
    congr 1
    apply List.map_congr_left
    intro k _
    simp [Rank.localSize, List.length_flatMap]
  refine ⟨(st.ranks.map Rank.localSize).sum, by rw [← h], ht, hs, ?_, ?_, ?_, ?_⟩
  · rw [hdisk]
    exact tiles_stored st.disk _ doff _ ht
  · intro x hx
    rw [hdisk]
    exact writeAt_out (by rw [hlen]; omega)
  · rw [← h]
    have : (exscan 0 (st.ranks.map Rank.localSize)).length = st.ranks.length := by
      rw [exscan_length, List.length_map]
    simp [this]
  · intro k hk
    rw [← h] at hk
    simp only at hk
    obtain ⟨i, hi, rfl⟩ := List.mem_iff_getElem.mp hk
    rw [List.getElem_zipWith]
    have hi' : i < st.ranks.length := by simp only [List.length_zipWith] at hi; omega
    have := hn st.ranks[i] (List.getElem_mem hi')
    have hl : ∀ (rs : List WReq) (acc : Nat), (localOffs acc rs).length = rs.length := by
      intro rs
      induction rs with
      | nil => intro acc; rfl
      | cons r rs ih => intro acc; simp [localOffs, ih]
    unfold Rank.pending Rank.flushAt
    apply List.drop_eq_nil_of_le
    simp only [List.length_append, List.length_take, List.length_map, hl, Rank.pending, List.length_drop]
    omega

/-- **C09, what tiling means.** -/
theorem C09_disjoint (st st' : FState) (doff : Nat) (hn : ∀ k ∈ st.ranks, k.nflushed ≤ k.wreqs.length)
    (h : st.flush doff = .ok st') (h0 : ∃ k ∈ st.ranks, ∃ r ∈ k.pending, r.data ≠ []) :
    ∃ size, st'.lds = st.lds ++ [⟨doff, size⟩] ∧
      (∀ r ∈ flushedNow st st', (doff : Int) ≤ r.foff ∧ r.foff + (r.data.length : Int) ≤ (doff + size : Nat)) ∧
      (flushedNow st st').Pairwise (fun r r' => r.foff + (r.data.length : Int) ≤ r'.foff) ∧
      ∀ x, doff ≤ x → x < doff + size →
        ∃ r ∈ flushedNow st st', r.foff ≤ (x : Int) ∧ (x : Int) < r.foff + (r.data.length : Int) := by
  obtain ⟨size, h1, h2, _⟩ := C09_flush_tiles st st' doff hn h h0
  obtain ⟨t1, t2, t3⟩ := h2.spec
  refine ⟨size, h1, ?_, ?_, ?_⟩
  · intro r hr
    exact t1 _ (List.mem_map_of_mem hr)
  · rw [List.pairwise_map] at t2
    exact t2
  · intro x hx1 hx2
    obtain ⟨y, hy, h3⟩ := t3 x (by omega) (by omega)
    obtain ⟨r, hr, rfl⟩ := List.mem_map.mp hy
    exact ⟨r, hr, h3⟩

/-- **C09, nothing to write.** No log dataset is created and the file is unchanged. -/
theorem C09_flush_nothing (st st' : FState) (doff : Nat) (h : st.flush doff = .ok st')
    (h0 : ∀ k ∈ st.ranks, ∀ r ∈ k.pending, r.data = []) : st'.lds = st.lds ∧ st'.disk = st.disk := by
  have hz : (st.ranks.map Rank.localSize).sum = 0 := by
    rw [sum_eq_zero]
    intro n hn
    obtain ⟨k, hk, rfl⟩ := List.mem_map.mp hn
    unfold Rank.localSize
    rw [sum_eq_zero]
    intro m hm
    obtain ⟨r, hr, rfl⟩ := List.mem_map.mp hm
    rw [h0 k hk r hr]; rfl
  unfold FState.flush at h
  split at h
  · simp only [hz, if_true, Res.ok.injEq] at h
    rw [← h]; simp
  · simp at h

/-! ### C11 -/

theorem metaSizes_eq (k : Rank) : (k.wreqs.map WReq.metaSize).sum = k.metaBytes.length := by
  unfold Rank.metaBytes
  rw [List.length_flatMap]
  congr 1
  apply List.map_congr_left
  intro r _
  exact metaSize_eq_length r

/-- The effect of a metadata flush with something to record. -/
theorem metaflush_eq (st : FState) (mdoff : Nat) (hp : st.ranks ≠ []) (hw : ∃ k ∈ st.ranks, k.wreqs ≠ []) :
    (st.metaflush mdoff).mds = st.mds ++
      [⟨mdoff, (secContent (st.ranks.map (fun k => k.wreqs.flatMap WReq.bytes))).length⟩] ∧
    (st.metaflush mdoff).disk =
      writeAt st.disk mdoff (secContent (st.ranks.map (fun k => k.wreqs.flatMap WReq.bytes))) := by
  obtain ⟨secs, hsecs⟩ : ∃ secs, secs = st.ranks.map (fun k => k.wreqs.flatMap WReq.bytes) := ⟨_, rfl⟩
  have hsl : secs.length = st.ranks.length := by rw [hsecs, List.length_map]
  rw [← hsecs]
  have hsz : (mdSizes st.ranks) = (mdBufs st.ranks).map List.length ∧
      (mdBufs st.ranks).flatten = secContent secs := by
    rw [hsecs]
    cases hr : st.ranks with
    | nil => exact absurd hr hp
    | cons k ks =>
      have e1 : ks.map (fun k => (k.wreqs.map WReq.metaSize).sum) = (ks.map Rank.metaBytes).map List.length := by
        rw [List.map_map]
        exact List.map_congr_left (fun k _ => metaSizes_eq k)
      have e2 : (ks.map (fun k => k.wreqs.flatMap WReq.bytes)) = ks.map Rank.metaBytes := rfl
      rw [mdBufs_cons, mdSizes_cons, e1, metaSizes_eq]
      constructor
      · simp only [List.map_cons, List.length_append, putWords_length, List.length_cons, inscan_length,
          List.length_map]
      · unfold secContent
        simp only [List.map_cons, e2, List.flatten_cons, List.length_cons, List.length_map, inscan,
          List.append_assoc, Nat.zero_add]
        rfl
  have htot : (mdSizes st.ranks).sum = (secContent secs).length := by
    rw [hsz.1, ← List.length_flatten, hsz.2]
  have hlen : (secContent secs).length = 8 * (st.ranks.length + 1) + (secs.map List.length).sum := by
    rw [secContent_length, secStart, List.take_length, hsl]
  have hpos : 8 * (st.ranks.length + 1) < (mdSizes st.ranks).sum := by
    rw [htot, hlen]
    obtain ⟨k, hk, hkw⟩ := hw
    have : 0 < (secs.map List.length).sum := by
      rcases Nat.eq_zero_or_pos (secs.map List.length).sum with hz | hz
      · exfalso
        have h1 := sum_eq_zero.mp hz (k.metaBytes).length (List.mem_map_of_mem (by
          rw [hsecs]; exact List.mem_map.mpr ⟨k, hk, rfl⟩))
        rw [← metaSizes_eq] at h1
        obtain ⟨r, rs, hr⟩ := List.exists_cons_of_ne_nil hkw
        have h2 := sum_eq_zero.mp h1 r.metaSize (by rw [hr]; simp)
        have := r.metaSize_pos
        omega
      · exact hz
    omega
  have hdisk : ((mdBufs st.ranks).zip (exscan 0 (mdSizes st.ranks))).foldl
      (fun d p => writeAt d (p.2 + mdoff) p.1) st.disk = writeAt st.disk mdoff (secContent secs) := by
    rw [hsz.1]
    have := foldl_writeAt (fun b : List Byte => b) mdoff (mdBufs st.ranks) 0 st.disk
    rw [Nat.zero_add] at this
    refine Eq.trans this ?_
    rw [← hsz.2, List.flatMap_def, List.map_id']
  unfold FState.metaflush
  simp only [if_pos hpos, hdisk, and_true]
  rw [htot]

/-- **C11.** For every state with at least one process: a metadata flush with something to record adds
one metadata dataset that consists of the number of processes, the offsets where their sections end and
their sections; section `i` is the concatenation of the entries of process `i`. -/
theorem C11_section_map (st : FState) (mdoff : Nat) (hp : st.ranks ≠ [])
    (hw : ∃ k ∈ st.ranks, k.wreqs ≠ [])
    (hs : secStart (st.ranks.map (fun k => k.wreqs.flatMap WReq.bytes)) st.ranks.length < 2 ^ 64) :
    ∃ size, (st.metaflush mdoff).mds = st.mds ++ [⟨mdoff, size⟩] ∧
      SectionMap (fileBytes (st.metaflush mdoff).disk mdoff size)
        (st.ranks.map (fun k => k.wreqs.flatMap WReq.bytes)) ∧
      (∀ x, (x < mdoff ∨ mdoff + size ≤ x) → (st.metaflush mdoff).disk x = st.disk x) := by
  obtain ⟨h1, h2⟩ := metaflush_eq st mdoff hp hw
  refine ⟨_, h1, ?_, ?_⟩
  · rw [sectionMap_iff (by rw [List.length_map]; exact hs), h2, fileBytes_writeAt]
  · intro x hx
    rw [h2]
    exact writeAt_out (by omega)

/-- **C11, offsets.** The end offsets in a section map never decrease and the last one is the size. -/
theorem C11_offsets {buf : List Byte} {secs : List (List Byte)} (h : SectionMap buf secs) :
    (∀ i, i + 1 < secs.length →
      unle ((buf.drop (8 * (i + 1))).take 8) ≤ unle ((buf.drop (8 * (i + 2))).take 8)) ∧
    (secs ≠ [] → unle ((buf.drop (8 * secs.length)).take 8) = buf.length) := by
  constructor
  · intro i hi
    rw [h.ends i (by omega), h.ends (i + 1) hi]
    unfold secStart
    rw [List.take_add_one (i := i + 1), List.map_append, List.sum_append]
    omega
  · intro hne
    have hl : 0 < secs.length := List.length_pos_iff.mpr hne
    have := h.ends (secs.length - 1) (by omega)
    rw [show secs.length - 1 + 1 = secs.length by omega] at this
    rw [this, h.len]

/-! ### C08 -/

/-- **C08, partial: at least one metadata dataset.** For all metadata datasets with any sections, possibly
empty, and every buffer limit, loading piece by piece ends after finitely many steps; the pieces are the
sections of all datasets in order, each section in exactly one piece, and a piece of more than one section
fits in the buffer. The search runs over exactly these pieces. Missing: files without metadata, see
`C08_empty_violated`. -/
theorem C08_pieces_partial (disk : Mem) (mds : List Ext) (mdx : List (List (List Byte))) (lim : Nat)
    (hne : mds ≠ [])
    (h : List.Forall₂ (fun e secs => SectionMap (fileBytes disk e.addr e.size) secs ∧ secs ≠ [] ∧
      e.size < 2 ^ 64) mds mdx) :
    ∃ n, ∀ fuel ≥ n, ∃ parts : List (List (List Byte)),
      loadTrace disk mds lim fuel (0, 0) = .ok (parts.map List.flatten) ∧
      parts.flatten = mdx.flatten ∧ (∀ p ∈ parts, p ≠ [] ∧ (p.length = 1 ∨ p.flatten.length ≤ lim)) ∧
      ∀ (st : FState) (qs : List RReq), st.disk = disk → st.mds = mds →
        loadLoop st lim qs fuel (0, 0) = flatMapRes (fun b =>
          ((Idx.empty st.compact).parse st.dsets st.cfg.share b).bind (fun ix => flatMapRes ix.search qs))
            (parts.map List.flatten) := by
  have h' : List.Forall₂ (fun e secs => SecOn disk e secs ∧ secs ≠ [] ∧ e.size < 2 ^ 64) mds mdx := by
    refine h.imp ?_
    intro e secs ⟨h1, h2, h3⟩
    refine ⟨?_, h2, h3⟩
    have hl := h1.len
    rw [fileBytes_length] at hl
    exact (sectionMap_iff (by omega)).mp h1
  refine ⟨mdx.flatten.length, fun fuel hf => ?_⟩
  cases mdx with
  | nil => cases h with
    | nil => exact absurd rfl hne
  | cons secs mdx =>
    have hs : 0 < secs.length := by
      cases h with
      | cons h1 _ => exact List.length_pos_iff.mpr h1.2.1
    have e : secsFrom (secs :: mdx) 0 0 = (secs :: mdx).flatten := by simp [secsFrom]
    obtain ⟨parts, p1, p2, p3⟩ := loadTrace_ok (lim := lim) h' fuel 0 0 secs rfl hs (by rw [e]; exact hf)
    refine ⟨parts, p1, by rw [p2, e], p3, ?_⟩
    intro st qs h1 h2
    exact loadLoop_trace st lim qs fuel (0, 0) _ (by rw [h1, h2]; exact p1)

/-- **C08, size of a piece.** One step of the bounded load, at any section of any metadata dataset, takes the following sections as
long as they fit in the buffer, but at least one: it stops before the end of the dataset only at a section that does not fit. -/
theorem C08_maximal {disk : Mem} {mds : List Ext} {md sec : Nat} {e : Ext} {secs : List (List Byte)}
    (he : mds[md]? = some e) (h : SectionMap (fileBytes disk e.addr e.size) secs) (h64 : e.size < 2 ^ 64)
    (hs : sec < secs.length) (lim : Nat) :
    ∃ i pos, sec < i ∧ i ≤ secs.length ∧ loadPart disk mds lim md sec = .ok (((secs.take i).drop sec).flatten, pos) ∧
      (i = sec + 1 ∨ ((secs.take i).drop sec).flatten.length ≤ lim) ∧
      (i < secs.length → pos = some (md, i) ∧ lim < ((secs.take (i + 1)).drop sec).flatten.length) := by
  have hl := h.len
  rw [fileBytes_length] at hl
  obtain ⟨i, i1, i2, i3, i4, i5⟩ := SecOn.part ((sectionMap_iff (by omega)).mp h : SecOn disk e secs) (lim := lim) he hs h64
  refine ⟨i, _, i1, i2, i3, i4, fun hi => ⟨?_, ?_⟩⟩
  · have hmd : md < mds.length := by
      by_contra hc
      rw [List.getElem?_eq_none (by omega)] at he
      simp at he
    rw [if_neg (by omega : ¬ secs.length ≤ i), if_neg (by omega), if_neg (by omega)]
  · exact i5.resolve_left (by omega)

/-- **C08, partial: same matches.** After any history with at least one flushed write, a search with any
buffer limit finds the matches that a search with the whole index in memory finds. -/
theorem C08_matches_partial (cfg : Cfg) {st : FState} {a : AFile} (h : Reach cfg st a)
    {qs : List RReq} (hi : Served cfg st.compact a qs)  (hq : Spec.ReqsWF st.compact a.dsets qs) {r : Nat}
    (hr : r < a.queue.length) (he : a.epoch.flatten = []) (hd : a.done ≠ []) (lim : Nat) :
    ∃ n, ∀ fuel ≥ n, ∃ raw st1 raw' st2,
      ({ st with mbuf := some lim } : FState).search fuel r qs = .ok (raw, st1) ∧
      ({ st with mbuf := none } : FState).search fuel r qs = .ok (raw', st2) ∧
      (raw.map Hit.noX).Perm (raw'.map Hit.noX) := by
  obtain ⟨g, inv⟩ := reach_inv h
  have inv1 : ∀ m, Inv cfg g { st with mbuf := m } a := fun m =>
    { inv with small := inv.small, idxl := inv.idxl }
  refine ⟨g.mdx.flatten.length, fun fuel hf => ?_⟩
  obtain ⟨raw, st1, s1, s2⟩ := search_served (inv1 (some lim)) hq hi hr he (Or.inr hd) hf
  obtain ⟨raw', st2, t1, t2⟩ := search_served (inv1 none) hq hi hr he (Or.inr hd) hf
  exact ⟨raw, st1, raw', st2, s1, t1, s2.trans t2.symm⟩

theorem flatMapRes_nil {α β : Type} {f : α → Res (List β)} {l : List α} (h : ∀ x ∈ l, f x = .ok []) :
    flatMapRes f l = .ok [] := by
  induction l with
  | nil => rfl
  | cons x l ih =>
    simp only [flatMapRes]
    rw [h x (by simp), ih (fun y hy => h y (by simp [hy]))]
    rfl

theorem search_empty (compact : Bool) (q : RReq) : (Idx.empty compact).search q = .ok [] := by
  cases compact <;> exact flatMapRes_nil (fun _ _ => rfl)

/-- **C08 violated.** A read with a metadata buffer limit fails on every file that has no metadata yet,
although the same read without limit succeeds. -/
theorem C08_empty_violated (st : FState) (lim r : Nat) (qs : List RReq) (hm : st.mds = [])
    (hc : st.idx[r]? = some none) :
    (∀ fuel, 0 < fuel → ({ st with mbuf := some lim } : FState).search fuel r qs = .err) ∧
    ∀ fuel, ∃ st', ({ st with mbuf := none } : FState).search fuel r qs = .ok ([], st') := by
  constructor
  · intro fuel h0
    obtain ⟨f, rfl⟩ : ∃ f, fuel = f + 1 := ⟨fuel - 1, by omega⟩
    unfold FState.search
    simp only
    unfold loadLoop loadPart
    simp [hm]
  · intro fuel
    unfold FState.search
    simp only [hc, hm, loadAll, Res.ok_bind]
    rw [flatMapRes_nil (fun q _ => search_empty st.compact q)]
    exact ⟨_, rfl⟩

/-! ### C10 -/

theorem flush_lds {st st' : FState} {doff : Nat} (h : st.flush doff = .ok st') :
    st'.lds = st.lds ∨ ∃ n, st'.lds = st.lds ++ [⟨doff, n⟩] := by
  unfold FState.flush at h
  split at h
  · simp only at h
    split at h
    · simp only [Res.ok.injEq] at h; rw [← h]; exact Or.inl rfl
    · simp only [Res.ok.injEq] at h; rw [← h]; exact Or.inr ⟨_, rfl⟩
  · simp at h

/-- Log datasets do not overlap and later ones have larger addresses. -/
theorem reach_lds {cfg : Cfg} {st : FState} {a : AFile} (h : Reach cfg st a) :
    st.lds.Pairwise (fun e e' => e.addr + e.size ≤ e'.addr) := by
  have step : ∀ {st st' : FState} {doff : Nat}, Fresh st doff → st.flush doff = .ok st' →
      st.lds.Pairwise (fun e e' => e.addr + e.size ≤ e'.addr) →
      st'.lds.Pairwise (fun e e' => e.addr + e.size ≤ e'.addr) := by
    intro st st' doff hf h ih
    rcases flush_lds h with e | ⟨n, e⟩
    · rw [e]; exact ih
    · rw [e, List.pairwise_append]
      refine ⟨ih, List.pairwise_singleton _ _, ?_⟩
      intro x hx y hy
      rw [List.mem_singleton] at hy
      rw [hy]
      exact hf x (by simp [hx])
  induction h with
  | create => exact List.Pairwise.nil
  | addDset d _ ih => exact ih
  | setDims did dims d _ _ _ ih => exact ih
  | @write st a st' r w _ _ h1 ih =>
    unfold FState.write at h1
    split at h1
    · obtain ⟨k', _, h3⟩ := Res.bind_ok h1
      simp only [Res.pure_eq, Res.ok.injEq] at h3
      rw [← h3]; exact ih
    · simp at h1
  | @flush st a st' doff _ hf h1 _ ih =>
    unfold FState.fileFlush at h1
    split at h1
    · exact step hf h1 ih
    · simp only [Res.ok.injEq] at h1; rw [← h1]; exact ih
  | @prepare st a st' coll doff mdoff _ hf _ _ _ h1 _ ih =>
    unfold FState.prepare at h1
    obtain ⟨st1, h2, h3⟩ := Res.bind_ok h1
    simp only [Res.pure_eq, Res.ok.injEq] at h3
    have : st1.lds.Pairwise (fun e e' => e.addr + e.size ≤ e'.addr) := by
      split at h2
      · exact step hf h2 ih
      · simp only [Res.ok.injEq] at h2; rw [← h2]; exact ih
    rw [← h3]
    split
    · rw [(metaflush_mds st1 mdoff).2]; exact this
    · exact this
  | @search st a st' raw fuel r qs _ _ h1 ih =>
    unfold FState.search at h1
    split at h1
    · obtain ⟨hs, _, h3⟩ := Res.bind_ok h1
      simp only [Res.pure_eq, Res.ok.injEq, Prod.mk.injEq] at h3
      rw [← h3.2]; exact ih
    · split at h1
      · simp at h1
      · obtain ⟨ix, _, h3⟩ := Res.bind_ok h1
        obtain ⟨hs, _, h4⟩ := Res.bind_ok h3
        simp only [Res.pure_eq, Res.ok.injEq, Prod.mk.injEq] at h4
        rw [← h4.2]; exact ih
  | @reopen st a st' doff mdoff np compact mbuf gone _ hf _ _ _ _ h1 _ ih =>
    unfold FState.close at h1
    obtain ⟨st1, h2, h3⟩ := Res.bind_ok h1
    simp only [Res.pure_eq, Res.ok.injEq] at h3
    rw [← h3]
    simp only [FState.reopen]
    rw [(metaflush_mds st1 mdoff).2]
    exact step hf h2 ih

/-- **C10, placement.** After any history, the writes that have been flushed, in order, occupy ranges of
the file that do not overlap and hold their data; each lies in exactly one log dataset. -/
theorem C10_placed_once (cfg : Cfg) {st : FState} {a : AFile} (h : Reach cfg st a) :
    ∃ offs : List Nat, offs.length = a.done.length ∧
      ((a.done.zip offs).Pairwise (fun x y => x.2 + x.1.data.length ≤ y.2)) ∧
      (∀ x ∈ a.done.zip offs, fileBytes st.disk x.2 x.1.data.length = x.1.data) ∧
      ∀ x ∈ a.done.zip offs, ∃ e ∈ st.lds, (e.addr ≤ x.2 ∧ x.2 + x.1.data.length ≤ e.addr + e.size) ∧
        ∀ e' ∈ st.lds, e'.addr < x.2 + x.1.data.length → x.2 < e'.addr + e'.size → e' = e := by
  obtain ⟨g, inv⟩ := reach_inv h
  have hz : a.done.zip (g.ls.map (fun x => x.2.toNat)) = g.ls.map (fun x => (x.1, x.2.toNat)) := by
    rw [← inv.done, List.zip_map']
  refine ⟨g.ls.map (fun x => x.2.toNat), by rw [← inv.done]; simp, ?_, ?_, ?_⟩
  · rw [hz, List.pairwise_map]
    refine List.Pairwise.imp_of_mem ?_ inv.lay.order
    intro x y hx hy hxy
    have := inv.lay.lo x hx
    simp only
    omega
  · intro x hx
    rw [hz] at hx
    obtain ⟨y, hy, rfl⟩ := List.mem_map.mp hx
    apply List.ext_getElem
    · simp
    · intro i h1 h2
      rw [fileBytes_getElem]
      exact inv.sto y hy i h2
  · intro x hx
    rw [hz] at hx
    obtain ⟨y, hy, rfl⟩ := List.mem_map.mp hx
    obtain ⟨e, he, h1, h2⟩ := inv.inl y hy
    have h0 := inv.lay.lo y hy
    simp only at h1 h2 ⊢
    refine ⟨e, he, ⟨by omega, by omega⟩, ?_⟩
    intro e' he' h3 h4
    obtain ⟨i, hi, rfl⟩ := List.mem_iff_getElem.mp he
    obtain ⟨j, hj, rfl⟩ := List.mem_iff_getElem.mp he'
    have hp := List.pairwise_iff_getElem.mp (reach_lds h)
    rcases Nat.lt_trichotomy i j with hij | hij | hij
    · have := hp i j hi hj hij
      omega
    · subst hij; rfl
    · have := hp j i hj hi hij
      omega

/-- **C10, flushing again.** After a flush, another flush changes nothing. -/
theorem C10_flush_again (cfg : Cfg) {st st' : FState} {a : AFile} (h : Reach cfg st a) {doff : Nat}
    (hf : Fresh st doff) (h1 : st.fileFlush doff = .ok st') (hsm : Small st') (doff' : Nat) :
    st'.fileFlush doff' = .ok st' ∧ st'.flush doff' = .ok st' := by
  obtain ⟨g, inv⟩ := reach_inv h
  obtain ⟨st2, e1, _, _, _, _, _, _, e2⟩ := inv_fileFlush inv hf
  rw [h1] at e1
  simp only [Res.ok.injEq] at e1
  subst e1
  obtain ⟨g', inv', hq⟩ := e2 hsm
  have hpend : ∀ k ∈ st'.ranks, k.pending = [] ∧ k.setLocal = k := by
    intro k hk
    rw [inv'.ranks] at hk
    obtain ⟨x, hx, rfl⟩ := List.mem_map.mp hk
    have hok := inv'.rok x hx
    have hp : x.k.pending = [] := by rw [hok.pending, hq x hx]; rfl
    refine ⟨hp, ?_⟩
    unfold Rank.setLocal
    rw [hp]
    have : x.k.wreqs.take x.k.nflushed = x.k.wreqs := by
      rw [hok.taken, hok.inv.reqs, hq x hx, List.append_nil]
    simp only [localOffs, List.append_nil, this]
  have hany : st'.anyPending = false := by
    unfold FState.anyPending
    rw [List.any_eq_false]
    intro k hk
    simp [(hpend k hk).1]
  refine ⟨?_, ?_⟩
  · unfold FState.fileFlush
    rw [hany]; rfl
  · have hz : (st'.ranks.map Rank.localSize).sum = 0 := by
      rw [sum_eq_zero]
      intro n hn
      obtain ⟨k, hk, rfl⟩ := List.mem_map.mp hn
      unfold Rank.localSize
      rw [(hpend k hk).1]; rfl
    have hm : st'.ranks.map Rank.setLocal = st'.ranks := by
      conv => rhs; rw [← List.map_id st'.ranks]
      exact List.map_congr_left (fun k hk => (hpend k hk).2)
    unfold FState.flush
    rw [if_pos inv'.short]
    simp only [hz, if_true, hm]

/-- **C10, metadata.** With nothing queued, a metadata flush adds one metadata dataset whose section `r` has
exactly one entry for every write that process `r` has flushed since the last metadata flush, in order; the
entry names the dataset and the place of the data. Nothing is left to record. -/
theorem C10_metaflush_once (cfg : Cfg) {st : FState} {a : AFile} (h : Reach cfg st a)
    (hq : a.queue.flatten = []) (he : a.epoch.flatten ≠ []) {mdoff : Nat} (hsm : Small (st.metaflush mdoff)) :
    ∃ size, (st.metaflush mdoff).mds = st.mds ++ [⟨mdoff, size⟩] ∧
      (∃ reqs : List (List WReq),
        List.Forall₂ (List.Forall₂ (fun (w : AW) (r : WReq) => r.did = w.did ∧ r.data = w.data ∧ 0 ≤ r.foff ∧
          fileBytes st.disk r.foff.toNat w.data.length = w.data)) a.epoch reqs ∧
        SectionMap (fileBytes (st.metaflush mdoff).disk mdoff size)
          (reqs.map (fun rs => rs.flatMap WReq.bytes))) ∧
      ∀ k ∈ (st.metaflush mdoff).ranks, k.wreqs = [] := by
  obtain ⟨g, inv⟩ := reach_inv h
  have hqu := inv.queue_nil hq
  have hreqs : ∀ x ∈ g.rs, x.k.wreqs = x.fl.map (·.2) := by
    intro x hx
    rw [(inv.rok x hx).inv.reqs, hqu x hx, List.append_nil]
  have hp : st.ranks ≠ [] := by
    rw [inv.ranks]
    have := inv.np0
    intro hn
    rw [List.map_eq_nil_iff] at hn
    rw [hn] at this
    simp at this
  have hw : ∃ k ∈ st.ranks, k.wreqs ≠ [] := by
    rw [inv.epoch] at he
    by_contra hn
    apply he
    rw [List.flatten_eq_nil_iff]
    intro l hl
    obtain ⟨x, hx, rfl⟩ := List.mem_map.mp hl
    by_contra hne
    apply hn
    refine ⟨x.k, by rw [inv.ranks]; exact List.mem_map_of_mem hx, ?_⟩
    rw [hreqs x hx]
    simpa using hne
  obtain ⟨e1, e2⟩ := metaflush_eq st mdoff hp hw
  have hs := hsm ⟨mdoff, (secContent (st.ranks.map (fun k => k.wreqs.flatMap WReq.bytes))).length⟩
    (by rw [e1]; simp)
  refine ⟨_, e1, ⟨st.ranks.map Rank.wreqs, ?_, ?_⟩, ?_⟩
  · rw [inv.epoch, inv.ranks, List.map_map, List.forall₂_map_left_iff, List.forall₂_map_right_iff,
      List.forall₂_same]
    intro x hx
    simp only [Function.comp]
    rw [hreqs x hx, List.forall₂_map_left_iff, List.forall₂_map_right_iff, List.forall₂_same]
    intro y hy
    have hsec := (inv.rok x hx).inv.sec
    obtain ⟨p, q, e⟩ := List.append_of_mem (show y ∈ x.fl ++ x.qu by simp [hy])
    have hh := secElem_hdr (hsec p y q e)
    have hm : loc y ∈ g.ls := inv.perm.mem_iff.mpr (List.mem_map_of_mem (List.mem_append_right _
      (List.mem_flatMap.mpr ⟨x, hx, hy⟩)))
    refine ⟨hh.1, hh.2.1, inv.lay.lo _ hm, ?_⟩
    apply List.ext_getElem
    · simp
    · intro i h1 h2
      rw [fileBytes_getElem]
      exact inv.sto _ hm i h2
  · rw [List.map_map]
    rw [sectionMap_iff, e2, fileBytes_writeAt]
    · rfl
    · rw [← secContent_length]
      simp only at hs
      have : (Function.comp (fun rs : List WReq => rs.flatMap WReq.bytes) Rank.wreqs) =
        fun k : Rank => k.wreqs.flatMap WReq.bytes := rfl
      rw [this]
      omega
  · intro k hk
    unfold FState.metaflush at hk
    obtain ⟨_, _, rfl⟩ := List.mem_map.mp hk
    rfl

end Verif.Props
