import Verif.Lemmas.FileTop

/-
C01, C02 (read-back), C17 (write_n), C18 (records), C19 (independent reads), C21 (close and open).
-/

namespace Verif.Props

open Spec (AW AFile WriteOK MayWrite Fresh Small Indexable Served ReqsOK ReadResult Viewable Reach Returns
  ReturnsIfOk expected lastByte cellByte InBlk)

/-! ### C01, C02 -/

/-- **C01, partial: requests with a valid file view.** Plain metadata (no sharing, no selection
encoding), either index, any metadata buffer size. After any history, a collective read of disjoint
blocks by process `r` succeeds and returns for every requested byte the one of the last write covering
it (queued writes included, in order of processes), else the fill value, else what was in the buffer;
nothing else is changed. Conditions: record numbers below `2^31` for the compact index; with bounded
metadata loading the log is not empty; the blocks are `Viewable`. See `C44_view_violated` for what
happens otherwise. -/
theorem C01_readback_partial (cfg : Cfg) (hs : cfg.share = false) (_he : cfg.selEncode = false)
    {st : FState} {a : AFile} (h : Reach cfg st a)
    {coll : Bool} (hcoll : Spec.SeesQueue coll a) {doff mdoff : Nat} (hf : Fresh st doff)
    (hf' : Fresh st mdoff) (hd : doff + Spec.queued a ≤ mdoff)
    (hc : st.compact = true → ∀ w ∈ a.done ++ a.queue.flatten, ∀ b ∈ w.bs, ∀ n,
      b.start.head? = some n → n < 2 ^ 31)
    {qs : List RReq} (hq : ReqsOK st.compact a.dsets qs) (hv : Viewable qs) {r : Nat}
    (hr : r < a.queue.length) (hm : st.mbuf = none ∨ a.done ++ a.queue.flatten ≠ []) :
    ∃ st1, st.prepare coll doff mdoff = .ok st1 ∧
      (Small st1 → Returns st1 r qs (a.done ++ a.queue.flatten)) := by
  obtain ⟨st1, h1, h2⟩ := reach_collective h hcoll hf hf' hd
    (served_plain hs h hc qs) hq hr hm
  exact ⟨st1, h1, fun hsm => (h2 hsm).2.1 hv⟩

/-- A request for a single block. -/
theorem viewable_one (q : RReq) (b : Blk) (h : q.bs = [b]) : Viewable [q] := by
  have key : ∀ {R : Blk → Blk → Prop}, ∀ q' ∈ [q], q'.bs.Pairwise R := by
    intro R q' hq'
    rw [List.mem_singleton] at hq'
    rw [hq', h]
    exact List.pairwise_singleton _ _
  exact ⟨key, List.pairwise_singleton _ _, Or.inr ⟨key, List.pairwise_singleton _ _⟩⟩

/-- **C01 for a single block.** -/
theorem C01_readback_block (cfg : Cfg) (hs : cfg.share = false) (he : cfg.selEncode = false)
    {st : FState} {a : AFile} (h : Reach cfg st a)
    {coll : Bool} (hcoll : Spec.SeesQueue coll a) {doff mdoff : Nat} (hf : Fresh st doff)
    (hf' : Fresh st mdoff) (hd : doff + Spec.queued a ≤ mdoff) (hl : st.compact = false)
    (hb : st.mbuf = none) {q : RReq} {b : Blk} (hqb : q.bs = [b]) (hq : ReqsOK st.compact a.dsets [q])
    {r : Nat} (hr : r < a.queue.length) :
    ∃ st1, st.prepare coll doff mdoff = .ok st1 ∧
      (Small st1 → Returns st1 r [q] (a.done ++ a.queue.flatten)) :=
  C01_readback_partial cfg hs he h hcoll hf hf' hd (by simp [hl]) hq (viewable_one q b hqb) hr (Or.inl hb)

/-- **C01, safety for all disjoint requests.** If the read succeeds, the result is right. -/
theorem C01_readback_ifok (cfg : Cfg) (hs : cfg.share = false) (_he : cfg.selEncode = false)
    {st : FState} {a : AFile} (h : Reach cfg st a)
    {coll : Bool} (hcoll : Spec.SeesQueue coll a) {doff mdoff : Nat} (hf : Fresh st doff)
    (hf' : Fresh st mdoff) (hd : doff + Spec.queued a ≤ mdoff)
    (hc : st.compact = true → ∀ w ∈ a.done ++ a.queue.flatten, ∀ b ∈ w.bs, ∀ n,
      b.start.head? = some n → n < 2 ^ 31)
    {qs : List RReq} (hq : ReqsOK st.compact a.dsets qs) {r : Nat}
    (hr : r < a.queue.length) (hm : st.mbuf = none ∨ a.done ++ a.queue.flatten ≠ []) :
    ∃ st1, st.prepare coll doff mdoff = .ok st1 ∧
      (Small st1 → ReturnsIfOk st1 r qs (a.done ++ a.queue.flatten)) := by
  obtain ⟨st1, h1, h2⟩ := reach_collective h hcoll hf hf' hd
    (served_plain hs h hc qs) hq hr hm
  exact ⟨st1, h1, fun hsm => (h2 hsm).2.2⟩

/-- **C02, partial: histories that can be indexed.** Any combination of metadata sharing and selection
encoding, in particular the default (both, compact index), and any metadata buffer size. -/
theorem C02_readback_partial (cfg : Cfg) {st : FState} {a : AFile} (h : Reach cfg st a)
    {coll : Bool} (hcoll : Spec.SeesQueue coll a) {doff mdoff : Nat} (hf : Fresh st doff) (hf' : Fresh st mdoff)
    (hd : doff + Spec.queued a ≤ mdoff)
    {qs : List RReq} (hi : Served cfg st.compact a.flush.metaflush qs)
     (hq : ReqsOK st.compact a.dsets qs) (hv : Viewable qs) {r : Nat}
    (hr : r < a.queue.length) (hm : st.mbuf = none ∨ a.done ++ a.queue.flatten ≠ []) :
    ∃ st1, st.prepare coll doff mdoff = .ok st1 ∧
      (Small st1 → Returns st1 r qs (a.done ++ a.queue.flatten)) := by
  obtain ⟨st1, h1, h2⟩ := reach_collective h hcoll hf hf' hd hi hq hr hm
  exact ⟨st1, h1, fun hsm => (h2 hsm).2.1 hv⟩

/-! ### C19 -/

/-- **C19, partial: no flushed write awaits its metadata flush, or nothing is queued.** An independent
read by a process of a file with several processes returns the writes flushed so far, and a later
collective read returns these and all writes queued at the time of the independent read. -/
theorem C19_independent_partial (cfg : Cfg) {st : FState} {a : AFile} (h : Reach cfg st a)
    {doff mdoff : Nat} (hf : Fresh st doff) (hf' : Fresh st mdoff) (hd : doff + Spec.queued a ≤ mdoff)
    (hnp : a.queue.length ≠ 1) (hcond : a.epoch.flatten = [] ∨ a.queue.flatten = [])
    {qs : List RReq} (hi : Served cfg st.compact a.metaflush qs) (hi' : Served cfg st.compact a.metaflush.flush.metaflush qs)
    (hq : ReqsOK st.compact a.dsets qs) (hv : Viewable qs) {r : Nat}
    (hr : r < a.queue.length) (hm : st.mbuf = none ∨ a.done ≠ []) :
    ∃ st1, st.prepare false doff mdoff = .ok st1 ∧ (Small st1 →
      Returns st1 r qs a.done ∧
      ∀ {coll : Bool}, Spec.SeesQueue coll a → ∀ {doff' mdoff' : Nat}, Fresh st1 doff' → Fresh st1 mdoff' →
        doff' + Spec.queued a ≤ mdoff' → ∃ st2, st1.prepare coll doff' mdoff' = .ok st2 ∧
          (Small st2 → Returns st2 r qs (a.done ++ a.queue.flatten))) := by
  obtain ⟨g, inv⟩ := reach_inv h
  have hc : false = true ∨ a.queue.length = 1 ∨ a.epoch.flatten = [] ∨ a.queue.flatten = [] :=
    Or.inr (Or.inr hcond)
  obtain ⟨st1, h1, _⟩ := inv_prepare inv hf hf' hd hc
  obtain ⟨c1, c2⟩ := prepare_same h1
  have hp : a.prepare false = a.metaflush := by
    unfold AFile.prepare
    rw [show (false || decide (a.queue.length = 1)) = false by simp [hnp]]
    rfl
  refine ⟨st1, h1, fun hsm => ?_⟩
  have hreach := Reach.prepare false doff mdoff h hf hf' hd hc h1 hsm
  rw [hp] at hreach
  constructor
  · exact (reach_read hreach (qs := qs) (r := r) (by rw [c1]; exact hi) (by rw [c1]; exact hq) hr
      (by simp [AFile.metaflush]) (by rw [c2]; exact hm)).1 hv
  · intro coll hcoll doff' mdoff' g1 g2 g3
    exact C02_readback_partial cfg hreach (show Spec.SeesQueue coll a.metaflush from hcoll) g1 g2 g3 (by rw [c1]; exact hi')
      (by rw [c1]; exact hq) hv hr (by
        rw [c2]
        rcases hm with hm | hm
        · exact Or.inl hm
        · right
          intro hn
          exact hm (List.append_eq_nil_iff.mp hn).1)

/-! ### C21 -/

/-- **C21, partial: histories that can be indexed.** After closing the file and opening it again (with
any number of processes, index and buffer size, some datasets possibly removed) reads return all writes
made before the close, whether or not they had been flushed. -/
theorem C21_close_partial (cfg : Cfg) {st : FState} {a : AFile} (h : Reach cfg st a)
    {doff mdoff : Nat} (hf : Fresh st doff) (hf' : Fresh st mdoff) (hd : doff + Spec.queued a ≤ mdoff)
    {np : Nat} (h0 : 0 < np) (h1 : np < 2 ^ 31) (compact : Bool) (mbuf : Option Nat) (gone : Nat → Bool)
    {qs : List RReq} (hi : Served cfg compact (a.flush.metaflush.reopen np gone) qs)
     (hq : ReqsOK compact (a.dsets.mapIdx (fun i o => if gone i then none else o)) qs)
    (hv : Viewable qs) {r : Nat} (hr : r < np) (hm : mbuf = none ∨ a.done ++ a.queue.flatten ≠ []) :
    ∃ st1, st.close doff mdoff = .ok st1 ∧
      (Small st1 → Returns (st1.reopen np compact mbuf gone) r qs (a.done ++ a.queue.flatten)) := by
  obtain ⟨g, inv⟩ := reach_inv h
  obtain ⟨st2, c1, _⟩ := inv_close inv hf hf' hd
  refine ⟨_, c1, fun hsm => ?_⟩
  have hreach := Reach.reopen doff mdoff np compact mbuf gone h hf hf' hd h0 h1 c1 hsm
  exact (reach_read hreach (qs := qs) (r := r) hi hq (by simpa [AFile.reopen] using hr)
    (by simp [AFile.reopen]) hm).1 hv

/-! ### C17 -/

/-- A write of several blocks may be replaced by the writes of its blocks. -/
theorem returns_split {st : FState} {r : Nat} {qs : List RReq} {l1 l2 : List AW} {w : AW} (hw : w.Sized)
    (he : ∀ q ∈ qs, q.did = w.did → q.d.esize = w.d.esize) :
    Returns st r qs (l1 ++ [w] ++ l2) → Returns st r qs (l1 ++ Spec.splitWrite w ++ l2) := by
  apply Returns.congr
  intro q hq c k hk
  simp only [lastByte_append]
  congr 2
  by_cases hd : w.did = q.did
  · exact (lastByte_split hw q.did c (by rw [← he q hq hd.symm]; exact hk)).symm
  · rw [lastByte_other (by simpa using hd), lastByte_other]
    intro v hv
    rw [splitWrite_did hv]
    exact hd

/-- **C17, partial: histories that can be indexed.** A read after a history with an `H5Dwrite_n` of
several blocks returns what would have been left by single-block writes in block order at that point. -/
theorem C17_write_n_partial (cfg : Cfg) {st : FState} {a : AFile} (h : Reach cfg st a)
    {coll : Bool} (hcoll : Spec.SeesQueue coll a) {doff mdoff : Nat} (hf : Fresh st doff) (hf' : Fresh st mdoff)
    (hd : doff + Spec.queued a ≤ mdoff)
    {qs : List RReq} (hi : Served cfg st.compact a.flush.metaflush qs)
     (hq : ReqsOK st.compact a.dsets qs) (hv : Viewable qs) {r : Nat}
    (hr : r < a.queue.length) {l1 l2 : List AW} {w : AW}
    (hall : a.done ++ a.queue.flatten = l1 ++ [w] ++ l2) (hw : w.Sized)
    (he : ∀ q ∈ qs, q.did = w.did → q.d.esize = w.d.esize) :
    ∃ st1, st.prepare coll doff mdoff = .ok st1 ∧
      (Small st1 → Returns st1 r qs (l1 ++ Spec.splitWrite w ++ l2)) := by
  obtain ⟨st1, h1, h2⟩ := C02_readback_partial cfg h hcoll hf hf' hd hi hq hv hr (Or.inr (by rw [hall]; simp))
  rw [hall] at h2
  exact ⟨st1, h1, fun hsm => returns_split hw he (h2 hsm)⟩

/-- Overlapping blocks of one write: the later block counts. -/
theorem C17_later_block_wins (w : AW) (l : List AW) {i : Nat} (hi : i < w.bs.length) {x : List Nat}
    (hx : InBlk w.bs[i] x) (hlast : ∀ j, ∀ hj : j < w.bs.length, i < j → ¬ InBlk w.bs[j] x) (hw : w.Sized)
    {k : Nat} (hk : k < w.d.esize) :
    lastByte (l ++ Spec.splitWrite w) w.did x k =
      w.data[Spec.dataOffset w.d.esize w.bs i + w.d.esize * Spec.idxIn w.bs[i] x + k]? ∧
    Spec.dataOffset w.d.esize w.bs i + w.d.esize * Spec.idxIn w.bs[i] x + k < w.data.length := by
  have hlt : Spec.dataOffset w.d.esize w.bs i + w.d.esize * Spec.idxIn w.bs[i] x + k < w.data.length := by
    refine positions_lt hw (c := x) ?_ hk
    unfold Spec.positions
    rw [List.mem_flatten]
    refine ⟨[Spec.dataOffset w.d.esize w.bs i + w.d.esize * Spec.idxIn w.bs[i] x], ?_, by simp⟩
    rw [List.mem_mapIdx]
    exact ⟨i, hi, by rw [if_pos hx]⟩
  refine ⟨?_, hlt⟩
  rw [lastByte_append, lastByte_split hw _ _ hk, lastByte_single, if_pos rfl,
    cellByte_last hi hx hlast, List.getElem?_eq_getElem hlt]
  rfl

/-! ### C18 -/

/-- **C18, partial: histories that can be indexed.** `w` is confined to record `n` and is followed by no
write to its dataset. A collective read returns the data of `w` in the cells it covers, and in all other
records what would be there without `w`. -/
theorem C18_records_partial (cfg : Cfg) {st : FState} {a : AFile} (h : Reach cfg st a)
    {coll : Bool} (hcoll : Spec.SeesQueue coll a) {doff mdoff : Nat} (hf : Fresh st doff) (hf' : Fresh st mdoff)
    (hd : doff + Spec.queued a ≤ mdoff)
    {qs : List RReq} (hi : Served cfg st.compact a.flush.metaflush qs)
     (hq : ReqsOK st.compact a.dsets qs) (hv : Viewable qs) {r : Nat}
    (hr : r < a.queue.length) {l1 l2 : List AW} {w : AW} {n : Nat}
    (hall : a.done ++ a.queue.flatten = l1 ++ [w] ++ l2) (hl2 : ∀ v ∈ l2, v.did ≠ w.did) (hw : w.Sized)
    (hrec : ∀ b ∈ w.bs, b.start.head? = some n ∧ b.count.head? = some 1) :
    ∃ st1, st.prepare coll doff mdoff = .ok st1 ∧ (Small st1 →
      ∃ m, ∀ fuel ≥ m, ∀ fill mem out, st1.reads fuel r fill qs mem out → ∃ mem', out = .ok mem' ∧
        ∀ q ∈ qs, q.did = w.did → q.d.esize = w.d.esize → ∀ i, ∀ hi : i < q.bs.length, ∀ c,
          InBlk q.bs[i] c → ∀ k, k < q.d.esize →
          (c.head? ≠ some n → mem' (Spec.addrOf q i q.bs[i] c k) =
            expected (l1 ++ l2) fill q.did c k (mem (Spec.addrOf q i q.bs[i] c k))) ∧
          (∀ j, ∀ hj : j < w.bs.length, InBlk w.bs[j] c →
            (∀ j', ∀ hj' : j' < w.bs.length, j < j' → ¬ InBlk w.bs[j'] c) →
            w.data[Spec.dataOffset w.d.esize w.bs j + w.d.esize * Spec.idxIn w.bs[j] c + k]? =
              some (mem' (Spec.addrOf q i q.bs[i] c k)))) := by
  obtain ⟨st1, h1, h2⟩ := C02_readback_partial cfg h hcoll hf hf' hd hi hq hv hr (Or.inr (by rw [hall]; simp))
  rw [hall] at h2
  refine ⟨st1, h1, fun hsm => ?_⟩
  obtain ⟨m, hm⟩ := h2 hsm
  refine ⟨m, fun fuel hfu fill mem out ho => ?_⟩
  obtain ⟨mem', e1, e2⟩ := (hm fuel hfu fill mem).2 out ho
  refine ⟨mem', e1, fun q hq' hdid hes i hi' c hc k hk => ⟨fun hhead => ?_, fun j hj hjc hlast => ?_⟩⟩
  · rw [e2.val q hq' i hi' c hc k hk]
    unfold expected
    have : lastByte (l1 ++ [w] ++ l2) q.did c k = lastByte (l1 ++ l2) q.did c k := by
      simp only [lastByte_append, lastByte_single]
      rw [hdid, if_pos rfl, cellByte_none (fun b hb hbc => hhead (inBlk_record (hrec b hb).1 (hrec b hb).2 hbc))]
      simp
    rw [this]
  · obtain ⟨w1, w2⟩ := C17_later_block_wins w l1 hj hjc hlast hw (k := k) (by rw [← hes]; exact hk)
    rw [e2.val q hq' i hi' c hc k hk]
    have : lastByte (l1 ++ [w] ++ l2) q.did c k = lastByte (l1 ++ Spec.splitWrite w) w.did c k := by
      simp only [lastByte_append]
      rw [hdid, lastByte_other hl2, lastByte_split hw _ _ (by rw [← hes]; exact hk)]
      rfl
    unfold expected
    rw [this, w1, List.getElem?_eq_getElem w2]

/-! ### C20 -/

/-- A file that has never been closed has no metadata datasets on record: after a crash, no write is
found, whatever has been flushed. -/
theorem C20_crash_lost (st : FState) (hs : st.saved = 0) (np : Nat) (compact : Bool) (gone : Nat → Bool)
    {r : Nat} (hr : r < np) (fuel : Nat) (fill : Nat → Option (List Byte)) (qs : List RReq) (mem : Mem)
    {out : Res Mem} (h : (st.reopen np compact none gone).reads fuel r fill qs mem out) :
    out = .ok (prefill fill qs mem) := by
  have hidx : (st.reopen np compact none gone).idx[r]? = some none := by
    simp [FState.reopen, hr]
  have hnil : ∀ {α β : Type} (f : α → Res (List β)) (l : List α), (∀ x, f x = .ok []) →
      flatMapRes f l = .ok [] := by
    intro α β f l hf
    induction l with
    | nil => rfl
    | cons x l ih => simp [flatMapRes, hf, ih]
  have hempty : ∀ q, (Idx.empty compact).search q = .ok [] := by
    intro q
    cases compact <;> exact hnil _ _ (fun _ => rfl)
  have hflat : ∀ qs : List RReq, flatMapRes (Idx.empty compact).search qs = .ok [] :=
    fun qs => hnil _ qs hempty
  have hsearch : ∃ st', (st.reopen np compact none gone).search fuel r qs = .ok ([], st') := by
    unfold FState.search
    rw [hidx]
    have : loadAll (st.reopen np compact none gone).dsets (st.reopen np compact none gone).cfg.share
        (st.reopen np compact none gone).disk (st.reopen np compact none gone).mds
        (Idx.empty (st.reopen np compact none gone).compact) = .ok (Idx.empty compact) := by
      have : (st.reopen np compact none gone).mds = [] := by simp [FState.reopen, hs]
      rw [this]; rfl
    simp only [FState.reopen] at this ⊢
    rw [this]
    simp only [Res.ok_bind, hflat]
    exact ⟨_, rfl⟩
  obtain ⟨st', hst⟩ := hsearch
  rcases h with ⟨raw, st2, hs', e1, e2, e3⟩ | ⟨e1, _⟩ | ⟨e1, _⟩
  · rw [hst] at e1
    simp only [Res.ok.injEq, Prod.mk.injEq] at e1
    have : hs' = [] := by
      have := e2.1
      rw [← e1.1] at this
      exact this.eq_nil
    rw [e3, this]
    rfl
  · rw [hst] at e1; simp at e1
  · rw [hst] at e1; simp at e1

end Verif.Props
