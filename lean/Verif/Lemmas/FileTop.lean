import Verif.Lemmas.ExactFile
import Verif.Lemmas.Split

/-
Reads at the level of the file, for all histories.
-/

namespace Verif

open Spec (AW AFile WriteOK MayWrite Fresh Small Indexable Served ReqsOK ReqsWF Once Repeats ReadResult Viewable Reach Returns
  ReturnsIfOk expected lastByte InBlk Confined Origin Buildable Measured Legible SmallRecords Readable present)

theorem flush_same {st st' : FState} {doff : Nat} (h : st.flush doff = .ok st') :
    st'.compact = st.compact ∧ st'.mbuf = st.mbuf ∧ st'.mds = st.mds ∧ st'.saved = st.saved ∧
    st'.dsets = st.dsets ∧ st'.cfg = st.cfg := by
  unfold FState.flush at h
  split at h
  · simp only at h
    split at h
    · simp only [Res.ok.injEq] at h; rw [← h]; simp
    · simp only [Res.ok.injEq] at h; rw [← h]; simp
  · simp at h

theorem metaflush_same (st : FState) (mdoff : Nat) :
    (st.metaflush mdoff).compact = st.compact ∧ (st.metaflush mdoff).mbuf = st.mbuf ∧
    (st.metaflush mdoff).dsets = st.dsets ∧ (st.metaflush mdoff).cfg = st.cfg ∧
    (st.metaflush mdoff).saved = st.saved := by
  unfold FState.metaflush
  simp only
  split <;> simp

theorem prepare_same {st st' : FState} {coll : Bool} {doff mdoff : Nat}
    (h : st.prepare coll doff mdoff = .ok st') : st'.compact = st.compact ∧ st'.mbuf = st.mbuf := by
  unfold FState.prepare at h
  obtain ⟨st1, h1, h2⟩ := Res.bind_ok h
  simp only [Res.pure_eq, Res.ok.injEq] at h2
  have h3 : st1.compact = st.compact ∧ st1.mbuf = st.mbuf := by
    split at h1
    · obtain ⟨a, b, _⟩ := flush_same h1; exact ⟨a, b⟩
    · simp only [Res.ok.injEq] at h1; rw [← h1]; simp
  rw [← h2]
  split
  · rw [(metaflush_same st1 mdoff).1, (metaflush_same st1 mdoff).2.1]; exact h3
  · exact h3

theorem origin_sameSel {cfg : Cfg} {prev : List AW} {x y : AW} (h : Origin cfg prev x y) : Spec.SameSel x y ∧ x ∈ prev := by
  obtain ⟨p, q, e, hs, _⟩ := h
  exact ⟨hs.sel, by rw [e]; simp⟩

theorem indexable_parts {cfg : Cfg} {a : AFile} {compact : Bool} (hi : Indexable cfg compact a) :
    Buildable cfg a ∧ (compact = false → ∀ did, Measured cfg a did) ∧
    (compact = true → (∀ did, present a.dsets did = true → Legible cfg a did) ∧ ∀ did, SmallRecords a did) := by
  have pw : ∀ {R : AW → AW → Prop} {p : List AW}, p.Pairwise R → ∀ prev y post, p = prev ++ y :: post → ∀ x ∈ prev, R x y := by
    intro R p hp prev y post e x hx
    rw [e, List.pairwise_append] at hp
    exact hp.2.2 x hx y (by simp)
  refine ⟨?_, ?_, ?_⟩
  · intro did hd hsh p hp prev y post e hyd x ho
    obtain ⟨h1, h2⟩ := origin_sameSel ho
    exact pw (hi.link hsh p hp) prev y post e x h2 h1 (by rw [hyd]; exact hd)
  · intro hc did hsh p hp prev y post e _ x ho
    obtain ⟨h1, h2⟩ := origin_sameSel ho
    exact pw (hi.sizes hsh hc p hp) prev y post e x h2 h1
  · intro hc
    refine ⟨?_, fun did p hp w hw _ _ b hb n hn => hi.heads hc p hp w hw b hb n hn⟩
    intro did hd hsh p hp prev y post e hyd x ho
    obtain ⟨h1, h2⟩ := origin_sameSel ho
    exact ⟨pw (hi.link hsh p hp) prev y post e x h2 h1 (by rw [hyd]; exact hd),
      fun hcf => pw (hi.norep hsh hc p hp) prev y post e x h2 hcf.1 hcf.2⟩

theorem Spec.Indexable.served {cfg : Cfg} {a : AFile} {compact : Bool} (hi : Indexable cfg compact a) {qs : List RReq}
    (hq : ReqsWF compact a.dsets qs) : Served cfg compact a qs := by
  obtain ⟨h1, h2, h3⟩ := indexable_parts hi
  refine ⟨fun _ => h1, fun hc q _ _ => h2 hc q.did, fun hc q hqm _ => (h3 hc).1 q.did ?_, fun hc q _ _ => (h3 hc).2 q.did⟩
  unfold present
  rw [hq.dset q hqm]

theorem Spec.Readable.served {cfg : Cfg} {a : AFile} {compact : Bool} {did : Nat} (h : Readable cfg compact a did) {qs : List RReq}
    (hq : ∀ q ∈ qs, q.did = did) : Served cfg compact a qs :=
  ⟨h.build, fun hc q hqm _ => by rw [hq q hqm]; exact h.meas hc, fun hc q hqm _ => by rw [hq q hqm]; exact h.leg hc,
    fun hc q hqm _ => by rw [hq q hqm]; exact h.recs hc⟩

theorem Spec.Served.sub {cfg : Cfg} {a : AFile} {compact : Bool} {qs qs' : List RReq} (h : Served cfg compact a qs)
    (hs : ∀ q' ∈ qs', q'.bs ≠ [] → ∃ q ∈ qs, q.did = q'.did ∧ q.bs ≠ []) : Served cfg compact a qs' := by
  refine ⟨h.build, fun hc q hqm hb => ?_, fun hc q hqm hb => ?_, fun hc q hqm hb => ?_⟩ <;>
    obtain ⟨q0, h1, h2, h3⟩ := hs q hqm hb <;> rw [← h2]
  · exact h.meas hc q0 h1 h3
  · exact h.leg hc q0 h1 h3
  · exact h.recs hc q0 h1 h3

/-- Viewable requests are always served. -/
theorem reach_total {cfg : Cfg} {st : FState} {a : AFile} (h : Reach cfg st a)
    {qs : List RReq} (hi : Served cfg st.compact a qs)  (hq : ReqsWF st.compact a.dsets qs) (hv : Viewable qs)
    {r : Nat} (hr : r < a.queue.length) (he : a.epoch.flatten = []) (hm : st.mbuf = none ∨ a.done ≠ []) :
    ∃ n, ∀ fuel ≥ n, ∀ fill mem, (∃ mem', st.reads fuel r fill qs mem (.ok mem')) ∧
      ∀ out, st.reads fuel r fill qs mem out → ∃ mem', out = .ok mem' := by
  obtain ⟨g, inv⟩ := reach_inv h
  refine ⟨g.mdx.flatten.length, fun fuel hf fill mem => ?_⟩
  obtain ⟨h1, h2, _⟩ := read_file inv hi hq hr he hm hf (fill := fill) (mem := mem)
  exact ⟨h1 hv, h2 hv⟩

theorem reach_repeated {cfg : Cfg} {st : FState} {a : AFile} (h : Reach cfg st a)
    {qs : List RReq} (hi : Served cfg st.compact a qs)  (hq : ReqsWF st.compact a.dsets qs) {r : Nat}
    (hr : r < a.queue.length) (he : a.epoch.flatten = []) (hm : st.mbuf = none ∨ a.done ≠ []) :
    (Viewable qs → Repeats a.done qs → Returns st r qs a.done) ∧ (Repeats a.done qs → ReturnsIfOk st r qs a.done) := by
  obtain ⟨g, inv⟩ := reach_inv h
  constructor
  · intro hv ho
    refine ⟨g.mdx.flatten.length, fun fuel hf fill mem => ?_⟩
    obtain ⟨h1, h2, h3⟩ := read_file inv hi hq hr he hm hf (fill := fill) (mem := mem)
    refine ⟨h1 hv, fun out hout => ?_⟩
    obtain ⟨mem', rfl⟩ := h2 hv out hout
    exact ⟨mem', rfl, h3 ho mem' hout⟩
  · intro rp
    refine ⟨g.mdx.flatten.length, fun fuel hf fill mem mem' ho => ?_⟩
    exact (read_file inv hi hq hr he hm hf (fill := fill) (mem := mem)).2.2 rp mem' ho

theorem reach_read {cfg : Cfg} {st : FState} {a : AFile} (h : Reach cfg st a)
    {qs : List RReq} (hi : Served cfg st.compact a qs)  (hq : ReqsOK st.compact a.dsets qs) {r : Nat}
    (hr : r < a.queue.length) (he : a.epoch.flatten = []) (hm : st.mbuf = none ∨ a.done ≠ []) :
    (Viewable qs → Returns st r qs a.done) ∧ ReturnsIfOk st r qs a.done :=
  have h1 := reach_repeated h hi hq.wf hr he hm
  ⟨fun hv => h1.1 hv (hq.repeats _), h1.2 (hq.repeats _)⟩

/-- Flushing when nothing is queued. -/
theorem flush_empty {a : AFile} (h : a.queue.flatten = []) (hl : a.epoch.length = a.queue.length) : a.flush = a := by
  have h0 : ∀ q ∈ a.queue, q = [] := List.flatten_eq_nil_iff.mp h
  have h1 : a.queue.map (fun _ => ([] : List AW)) = a.queue := by
    conv => rhs; rw [← List.map_id a.queue]
    exact List.map_congr_left (fun q hq => (h0 q hq).symm)
  have h2 : List.zipWith (· ++ ·) a.epoch a.queue = a.epoch := by
    apply List.ext_getElem
    · rw [List.length_zipWith]
      omega
    · intro i g1 g2
      rw [List.getElem_zipWith, h0 _ (List.getElem_mem _), List.append_nil]
  unfold AFile.flush
  rw [h1, h2, h, List.append_nil]

/-- A collective read, or any read if there is one process: it first flushes.  If nothing is queued, it need not. -/
theorem reach_collective_repeated {cfg : Cfg} {st : FState} {a : AFile} (h : Reach cfg st a) {coll : Bool}
    (hcoll : Spec.SeesQueue coll a) {doff mdoff : Nat}
    (hf : Fresh st doff) (hf' : Fresh st mdoff) (hd : doff + Spec.queued a ≤ mdoff)
    {qs : List RReq} (hi : Served cfg st.compact a.flush.metaflush qs) 
    (hq : ReqsWF st.compact a.dsets qs) {r : Nat} (hr : r < a.queue.length)
    (hm : st.mbuf = none ∨ a.done ++ a.queue.flatten ≠ []) :
    ∃ st1, st.prepare coll doff mdoff = .ok st1 ∧ (Small st1 → Reach cfg st1 (a.prepare coll) ∧
      (Viewable qs → ∃ n, ∀ fuel ≥ n, ∀ fill mem, (∃ mem', st1.reads fuel r fill qs mem (.ok mem')) ∧
        ∀ out, st1.reads fuel r fill qs mem out → ∃ mem', out = .ok mem') ∧
      (Viewable qs → Repeats (a.done ++ a.queue.flatten) qs → Returns st1 r qs (a.done ++ a.queue.flatten)) ∧
      (Repeats (a.done ++ a.queue.flatten) qs → ReturnsIfOk st1 r qs (a.done ++ a.queue.flatten))) := by
  obtain ⟨g, inv⟩ := reach_inv h
  have hc : coll = true ∨ a.queue.length = 1 ∨ a.epoch.flatten = [] ∨ a.queue.flatten = [] := by
    rcases hcoll with h | h | h
    · exact Or.inl h
    · exact Or.inr (Or.inl h)
    · exact Or.inr (Or.inr (Or.inr h))
  obtain ⟨st1, h1, _⟩ := inv_prepare inv hf hf' hd hc
  obtain ⟨c1, c2⟩ := prepare_same h1
  have hp : a.prepare coll = a.flush.metaflush := by
    unfold AFile.prepare
    split
    · rfl
    · rename_i hb
      simp only [Bool.or_eq_true, decide_eq_true_eq, not_or] at hb
      rw [flush_empty (hcoll.resolve_left hb.1 |>.resolve_left hb.2) (by rw [inv.epoch, inv.queue, List.length_map, List.length_map])]
  refine ⟨st1, h1, fun hsm => ?_⟩
  have hreach := Reach.prepare coll doff mdoff h hf hf' hd hc h1 hsm
  have i1 : Served cfg st1.compact (a.prepare coll) qs := by rw [c1, hp]; exact hi
  have i2 : ReqsWF st1.compact (a.prepare coll).dsets qs := by rw [c1, hp]; exact hq
  have i3 : r < (a.prepare coll).queue.length := by rw [hp]; simpa [AFile.flush, AFile.metaflush] using hr
  have i4 : (a.prepare coll).epoch.flatten = [] := by rw [hp]; simp [AFile.metaflush]
  have hdone : (a.prepare coll).done = a.done ++ a.queue.flatten := by rw [hp]; rfl
  have i5 : st1.mbuf = none ∨ (a.prepare coll).done ≠ [] := by rw [c2, hdone]; exact hm
  have := reach_repeated hreach i1 i2 i3 i4 i5
  rw [hdone] at this
  exact ⟨hreach, fun hv => reach_total hreach i1 i2 hv i3 i4 i5, this⟩

theorem reach_collective {cfg : Cfg} {st : FState} {a : AFile} (h : Reach cfg st a) {coll : Bool}
    (hcoll : Spec.SeesQueue coll a) {doff mdoff : Nat}
    (hf : Fresh st doff) (hf' : Fresh st mdoff) (hd : doff + Spec.queued a ≤ mdoff)
    {qs : List RReq} (hi : Served cfg st.compact a.flush.metaflush qs) 
    (hq : ReqsOK st.compact a.dsets qs) {r : Nat} (hr : r < a.queue.length)
    (hm : st.mbuf = none ∨ a.done ++ a.queue.flatten ≠ []) :
    ∃ st1, st.prepare coll doff mdoff = .ok st1 ∧ (Small st1 → Reach cfg st1 (a.prepare coll) ∧
      (Viewable qs → Returns st1 r qs (a.done ++ a.queue.flatten)) ∧
      ReturnsIfOk st1 r qs (a.done ++ a.queue.flatten)) :=
  let ⟨st1, h1, h2⟩ := reach_collective_repeated h hcoll hf hf' hd hi hq.wf hr hm
  ⟨st1, h1, fun hsm => ⟨(h2 hsm).1, fun hv => (h2 hsm).2.2.1 hv (hq.repeats _), (h2 hsm).2.2.2 (hq.repeats _)⟩⟩

theorem reach_subset {cfg : Cfg} {st : FState} {a : AFile} (h : Reach cfg st a) :
    (∀ p ∈ a.secs, ∀ w ∈ p, w ∈ a.done) ∧ (∀ p ∈ a.epoch, ∀ w ∈ p, w ∈ a.done) := by
  have hflush : ∀ a : AFile, ((∀ p ∈ a.secs, ∀ w ∈ p, w ∈ a.done) ∧ (∀ p ∈ a.epoch, ∀ w ∈ p, w ∈ a.done)) →
      ((∀ p ∈ a.flush.secs, ∀ w ∈ p, w ∈ a.flush.done) ∧
        (∀ p ∈ a.flush.epoch, ∀ w ∈ p, w ∈ a.flush.done)) := by
    intro a ⟨h1, h2⟩
    constructor
    · intro p hp w hw
      exact List.mem_append_left _ (h1 p hp w hw)
    · intro p hp w hw
      simp only [AFile.flush] at hp ⊢
      rw [List.mem_iff_getElem] at hp
      obtain ⟨i, hi, rfl⟩ := hp
      rw [List.length_zipWith] at hi
      rw [List.getElem_zipWith, List.mem_append] at hw
      rcases hw with hw | hw
      · exact List.mem_append_left _ (h2 _ (List.getElem_mem _) w hw)
      · exact List.mem_append_right _ (List.mem_flatten.mpr ⟨_, List.getElem_mem _, hw⟩)
  have hmeta : ∀ a : AFile, ((∀ p ∈ a.secs, ∀ w ∈ p, w ∈ a.done) ∧ (∀ p ∈ a.epoch, ∀ w ∈ p, w ∈ a.done)) →
      ((∀ p ∈ a.metaflush.secs, ∀ w ∈ p, w ∈ a.metaflush.done) ∧
        (∀ p ∈ a.metaflush.epoch, ∀ w ∈ p, w ∈ a.metaflush.done)) := by
    intro a ⟨h1, h2⟩
    constructor
    · intro p hp w hw
      rcases List.mem_append.mp hp with hp | hp
      · exact h1 p hp w hw
      · exact h2 p hp w hw
    · intro p hp w hw
      obtain ⟨_, _, rfl⟩ := List.mem_map.mp hp
      simp at hw
  induction h with
  | create => constructor <;> intro p hp w hw <;> simp_all [AFile.create]
  | addDset _ _ ih => exact ih
  | setDims _ _ _ _ _ _ ih => exact ih
  | write _ _ _ _ _ ih => exact ih
  | flush _ _ _ _ _ ih => exact hflush _ ih
  | prepare coll _ _ _ _ _ _ _ _ _ ih =>
    unfold AFile.prepare
    split
    · exact hmeta _ (hflush _ ih)
    · exact hmeta _ ih
  | search _ _ _ _ _ _ ih => exact ih
  | reopen _ _ np _ _ _ _ _ _ _ _ _ _ _ ih =>
    have := hmeta _ (hflush _ ih)
    refine ⟨this.1, ?_⟩
    intro p hp w hw
    simp only [AFile.reopen, List.mem_replicate] at hp
    rw [hp.2] at hw
    simp at hw

/-- Without sharing the only condition on the history concerns large record numbers. -/
theorem served_plain {cfg : Cfg} (hs : cfg.share = false) {st : FState} {a : AFile} (h : Reach cfg st a)
    {compact : Bool} (hc : compact = true → ∀ w ∈ a.done ++ a.queue.flatten, ∀ b ∈ w.bs, ∀ n,
      b.start.head? = some n → n < 2 ^ 31) (qs : List RReq) : Served cfg compact a.flush.metaflush qs := by
  obtain ⟨h1, h2⟩ := reach_subset h
  refine ⟨fun _ did _ h => by simp [hs] at h, fun _ q _ _ h => by simp [hs] at h, fun _ q _ _ h => by simp [hs] at h, ?_⟩
  intro hcc q _ _ p hp w hw _ _
  have hm : w ∈ a.done ++ a.queue.flatten := by
    simp only [AFile.metaflush, AFile.flush, List.mem_append] at hp
    rcases hp with hp | hp
    · exact List.mem_append_left _ (h1 p hp w hw)
    · rw [List.mem_iff_getElem] at hp
      obtain ⟨i, hi, rfl⟩ := hp
      rw [List.length_zipWith] at hi
      rw [List.getElem_zipWith, List.mem_append] at hw
      rcases hw with hw | hw
      · exact List.mem_append_left _ (h2 _ (List.getElem_mem _) w hw)
      · exact List.mem_append_right _ (List.mem_flatten.mpr ⟨_, List.getElem_mem _, hw⟩)
  exact hc hcc w hm

/-! ### Progress -/

theorem reach_write {cfg : Cfg} {st : FState} {a : AFile} (h : Reach cfg st a) {r : Nat} {w : AW}
    (hw : MayWrite cfg a r w) (hr : r < a.queue.length) :
    ∃ st', st.write r w.did w.bs w.data = .ok st' ∧ st'.lds = st.lds ∧ st'.mds = st.mds ∧
      st'.compact = st.compact ∧ st'.mbuf = st.mbuf ∧ st'.saved = st.saved ∧ Reach cfg st' (a.write r w) := by
  obtain ⟨g, inv⟩ := reach_inv h
  obtain ⟨st', _, h1, _⟩ := inv_write inv hw hr
  have h2 := h1
  unfold FState.write at h2
  split at h2
  · obtain ⟨k, _, h3⟩ := Res.bind_ok h2
    simp only [Res.pure_eq, Res.ok.injEq] at h3
    refine ⟨st', h1, ?_, ?_, ?_, ?_, ?_, Reach.write r w h hw h1⟩ <;> rw [← h3]
  · simp at h2

theorem reach_flush {cfg : Cfg} {st : FState} {a : AFile} (h : Reach cfg st a) {doff : Nat}
    (hf : Fresh st doff) (hs : doff + Spec.queued a < 2 ^ 63) :
    ∃ st', st.fileFlush doff = .ok st' ∧ st'.mds = st.mds ∧ st'.compact = st.compact ∧ st'.mbuf = st.mbuf ∧
      st'.saved = st.saved ∧ (∀ e ∈ st'.lds, e ∈ st.lds ∨ e = ⟨doff, Spec.queued a⟩) ∧
      Reach cfg st' a.flush := by
  obtain ⟨g, inv⟩ := reach_inv h
  obtain ⟨st', h1, h2, _, h3, h4, h5, h6, _⟩ := inv_fileFlush inv hf
  refine ⟨st', h1, h2, h3, h4, h5, h6, Reach.flush doff h hf h1 ?_⟩
  intro e he
  rcases List.mem_append.mp he with he | he
  · rcases h6 e he with he | rfl
    · exact inv.small e (by simp [he])
    · exact hs
  · rw [h2] at he
    exact inv.small e (by simp [he])

/-! ### Results of reads -/

theorem ReadResult.congr {l l' : List AW} {fill : Nat → Option (List Byte)} {qs : List RReq} {mem mem' : Mem}
    (h : ∀ q ∈ qs, ∀ c k, k < q.d.esize → lastByte l q.did c k = lastByte l' q.did c k)
    (hr : ReadResult l fill qs mem mem') : ReadResult l' fill qs mem mem' := by
  refine ⟨fun q hq i hi c hc k hk => ?_, hr.out⟩
  rw [hr.val q hq i hi c hc k hk]
  unfold expected
  rw [h q hq c k hk]

theorem Returns.congr {st : FState} {r : Nat} {l l' : List AW} {qs : List RReq}
    (h : ∀ q ∈ qs, ∀ c k, k < q.d.esize → lastByte l q.did c k = lastByte l' q.did c k)
    (hr : Returns st r qs l) : Returns st r qs l' := by
  obtain ⟨n, hn⟩ := hr
  refine ⟨n, fun fuel hf fill mem => ⟨(hn fuel hf fill mem).1, fun out ho => ?_⟩⟩
  obtain ⟨mem', h1, h2⟩ := (hn fuel hf fill mem).2 out ho
  exact ⟨mem', h1, ReadResult.congr h h2⟩

/-- A cell of a write confined to a record lies in that record. -/
theorem inBlk_record {b : Blk} {n : Nat} (h : b.start.head? = some n) (h1 : b.count.head? = some 1)
    {c : List Nat} (hc : InBlk b c) : c.head? = some n := by
  unfold InBlk at hc
  cases hs : b.start with
  | nil => rw [hs] at h; simp at h
  | cons s ss =>
    cases hn : b.count with
    | nil => rw [hn] at h1; simp at h1
    | cons m ms =>
      rw [hs] at h; rw [hn] at h1
      cases c with
      | nil => rw [hs, hn] at hc; simp [Spec.inBox] at hc
      | cons x xs =>
        rw [hs, hn] at hc
        simp only [Spec.inBox, Bool.and_eq_true, decide_eq_true_eq] at hc
        simp only [List.head?_cons, Option.some.injEq] at h h1 ⊢
        omega

theorem cellByte_none {w : AW} {c : List Nat} (h : ∀ b ∈ w.bs, ¬ InBlk b c) (k : Nat) :
    Spec.cellByte w c k = none := by
  have : Spec.positions w.d.esize w.bs c = [] := by
    unfold Spec.positions
    rw [List.flatten_eq_nil_iff]
    intro l hl
    rw [List.mem_mapIdx] at hl
    obtain ⟨i, hi, rfl⟩ := hl
    rw [if_neg (h _ (List.getElem_mem hi))]
  unfold Spec.cellByte
  rw [this]; rfl

theorem lastByte_other {l : List AW} {did : Nat} (h : ∀ v ∈ l, v.did ≠ did) (c : List Nat) (k : Nat) :
    lastByte l did c k = none := by
  have : l.filter (fun w => decide (w.did = did)) = [] := by
    rw [List.filter_eq_nil_iff]
    intro v hv
    simp [h v hv]
  unfold lastByte
  rw [this]; rfl

end Verif
