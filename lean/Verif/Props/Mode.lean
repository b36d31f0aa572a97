import Verif.Props.FlushEx

/-
C67: a blocking read made by all processes first flushes (doc/usage.md L167-169).
-/

namespace Verif.Props

open Spec (AFile AW Reach Indexable Served ReqsOK Viewable Fresh Small Returns lastByte InBlk)

/-- **C67, partial: one process.** Whatever the transfer mode asked for, a read returns all writes made before it, flushed or not.
(Histories that can be indexed.) -/
theorem C67_one_partial (cfg : Cfg) {st : FState} {a : AFile} (h : Reach cfg st a) (hone : a.queue.length = 1)
    {doff mdoff : Nat} (hf : Fresh st doff) (hf' : Fresh st mdoff) (hd : doff + Spec.queued a ≤ mdoff)
    {qs : List RReq} (hi : Served cfg st.compact a.flush.metaflush qs)
     (hq : ReqsOK st.compact a.dsets qs) (hv : Viewable qs)
    (hm : st.mbuf = none ∨ a.done ++ a.queue.flatten ≠ []) (asked : Bool) :
    ∃ st1, st.dread asked doff mdoff = .ok st1 ∧ (Small st1 → Returns st1 0 qs (a.done ++ a.queue.flatten)) :=
  C02_readback_partial cfg h (.inr (.inl hone)) hf hf' hd hi hq hv (by omega) hm

/-- **C67, partial: after a flush.** If the processes call H5Fflush before they read, the read returns all writes made before the
flush; whatever the number of processes and the transfer mode asked for. -/
theorem C67_flush_partial (cfg : Cfg) {st : FState} {a : AFile} (h : Reach cfg st a) {foff : Nat} (hff : Fresh st foff)
    {qs : List RReq} (hi : Served cfg st.compact a.flush.metaflush qs)
     (hq : ReqsOK st.compact a.dsets qs) (hv : Viewable qs) {r : Nat} (hr : r < a.queue.length)
    (hm : st.mbuf = none ∨ a.done ++ a.queue.flatten ≠ []) (hs : foff + Spec.queued a < 2 ^ 63) (asked : Bool) :
    ∃ st1, st.fileFlush foff = .ok st1 ∧ (Small st1 → ∀ {doff mdoff : Nat}, Fresh st1 doff → Fresh st1 mdoff → doff ≤ mdoff →
      ∃ st2, st1.dread asked doff mdoff = .ok st2 ∧ (Small st2 → Returns st2 r qs (a.done ++ a.queue.flatten))) := by
  obtain ⟨st1, h1, _, c1, c2, _, _, hr1⟩ := reach_flush h hff hs
  obtain ⟨g, inv⟩ := reach_inv h
  have h0 : a.flush.queue.flatten = [] := List.flatten_eq_nil_iff.mpr (fun q hq => by
    obtain ⟨_, -, e⟩ := List.mem_map.mp hq
    exact e.symm)
  have hl : a.epoch.length = a.queue.length := by rw [inv.epoch, inv.queue, List.length_map, List.length_map]
  have hfl : a.flush.flush = a.flush := flush_empty h0 (by
    show (List.zipWith (· ++ ·) a.epoch a.queue).length = (a.queue.map (fun _ => ([] : List AW))).length
    rw [List.length_zipWith, List.length_map]
    omega)
  refine ⟨st1, h1, fun _ doff mdoff g1 g2 g3 => ?_⟩
  have := C02_readback_partial cfg hr1 (coll := fileMode) (.inr (.inr h0)) g1 g2 (by rw [Spec.queued, h0]; exact g3)
    (by rw [hfl, c1]; exact hi) (by rw [c1]; exact hq) hv (r := r) (by
      show r < (a.queue.map (fun _ => ([] : List AW))).length
      rw [List.length_map]
      exact hr) (by rw [c2, h0, List.append_nil]; exact hm)
  rw [h0, List.append_nil] at this
  exact this

/-- A read cannot return two different contents. -/
theorem returns_unique {st : FState} {r : Nat} {qs : List RReq} {l l' : List AW} (h : Returns st r qs l) (h' : Returns st r qs l')
    {q : RReq} (hq : q ∈ qs) {i : Nat} (hi : i < q.bs.length) {c : List Nat} (hc : InBlk q.bs[i] c) {k : Nat} (hk : k < q.d.esize) :
    lastByte l q.did c k = lastByte l' q.did c k := by
  obtain ⟨n, hn⟩ := h
  obtain ⟨n', hn'⟩ := h'
  have key : ∀ old : Byte, Spec.expected l (fun _ => none) q.did c k old = Spec.expected l' (fun _ => none) q.did c k old := by
    intro old
    obtain ⟨⟨m, hm⟩, h1⟩ := hn (max n n') (by omega) (fun _ => none) (fun _ => old)
    obtain ⟨_, e, r1⟩ := h1 _ hm
    obtain ⟨_, e', r2⟩ := (hn' (max n n') (by omega) (fun _ => none) (fun _ => old)).2 _ hm
    cases e
    cases e'
    rw [← r1.val q hq i hi c hc k hk, r2.val q hq i hi c hc k hk]
  unfold Spec.expected at key
  generalize lastByte l q.did c k = x at key ⊢
  generalize lastByte l' q.did c k = y at key ⊢
  rcases x with _ | u <;> rcases y with _ | v
  · rfl
  · exact absurd ((show (0 : Byte) = v from key 0).trans (show (1 : Byte) = v from key 1).symm) (by decide)
  · exact absurd ((show u = (0 : Byte) from key 0).symm.trans (show u = (1 : Byte) from key 1)) (by decide)
  · exact congrArg some (show u = v from key 0)

/-- **C67 is violated** for every file with several processes all of whose flushed writes have their metadata in the file (in
particular: nothing has been flushed yet). A read by all processes in collective mode returns the writes flushed so far and none of
the queued ones; so it does not return what has been written, if a queued write changes any cell that is read. -/
theorem C67_collective_violated (cfg : Cfg) {st : FState} {a : AFile} (h : Reach cfg st a) (hnp : a.queue.length ≠ 1)
    (he : a.epoch.flatten = []) {doff mdoff : Nat} (hf : Fresh st doff) (hf' : Fresh st mdoff) (hd : doff + Spec.queued a ≤ mdoff)
    {qs : List RReq} (hi : Served cfg st.compact a.metaflush qs) (hi' : Served cfg st.compact a.metaflush.flush.metaflush qs)
    (hq : ReqsOK st.compact a.dsets qs) (hv : Viewable qs) (hm : st.mbuf = none ∨ a.done ≠ [])
    {q : RReq} (hqm : q ∈ qs) {i : Nat} (hib : i < q.bs.length) {c : List Nat} (hc : InBlk q.bs[i] c) {k : Nat} (hk : k < q.d.esize)
    (hdiff : lastByte (a.done ++ a.queue.flatten) q.did c k ≠ lastByte a.done q.did c k) :
    ∃ st1, st.dread true doff mdoff = .ok st1 ∧ (Small st1 → ∀ r < a.queue.length,
      Returns st1 r qs a.done ∧ ¬ Returns st1 r qs (a.done ++ a.queue.flatten)) := by
  obtain ⟨g, inv⟩ := reach_inv h
  obtain ⟨st1, h1, _⟩ := inv_prepare inv (coll := false) hf hf' hd (.inr (.inr (.inl he)))
  refine ⟨st1, h1, fun hsm r hr => ?_⟩
  obtain ⟨st1', h1', h2⟩ := C19_independent_partial cfg h hf hf' hd hnp (.inl he) hi hi' hq hv hr hm
  rw [h1] at h1'
  cases h1'
  have h3 := (h2 hsm).1
  exact ⟨h3, fun h4 => hdiff (returns_unique h4 h3 hqm hib hc hk)⟩

/-- A case of it: two processes have written and read collectively, before any flush. Nothing of what they wrote is returned. -/
example (enc share compact : Bool) : ∃ st st1, Reach ⟨enc, share⟩ st gxFile ∧ gxFile.queue = [[fxA], [fxB]] ∧
    st.dread true 2000 3000 = .ok st1 ∧ ∀ r < 2, Returns st1 r [fxQ] [] ∧ ¬ Returns st1 r [fxQ] [fxA, fxB] := by
  have h : ∀ enc share compact, okWith (fun st => okWith (fun st1 =>
      decide (Fresh st 2000 ∧ Fresh st 3000 ∧ Small st1 ∧ st.mbuf = none)) (st.prepare false 2000 3000))
      (gxRun ⟨enc, share⟩ compact none) = true := by decide +kernel
  obtain ⟨st, h1, h2⟩ := okWith_iff (h enc share compact)
  obtain ⟨st1, h3, h4⟩ := okWith_iff h2
  rw [decide_eq_true_eq] at h4
  obtain ⟨st2, g1, g2⟩ := C67_collective_violated _ (gx_reach h1) (by decide) rfl h4.1 h4.2.1 (by decide)
    ((indexable_short (by decide) (by decide)).served (fx_request _).1.wf) ((indexable_short (by decide) (by decide)).served (fx_request _).1.wf)
    (fx_request _).1 (fx_request st.compact).2
    (.inl h4.2.2.2) (q := fxQ) (by simp) (i := 0) (by decide) (c := [0, 0]) (by decide) (k := 0) (by decide) (by decide)
  have : st2 = st1 := by
    have := g1.symm.trans h3
    simpa using this
  subst this
  exact ⟨st, st2, gx_reach h1, rfl, g1, g2 h4.2.2.1⟩

/-- The hypotheses of `C67_flush_partial` hold for the same history. -/
example (enc share compact : Bool) : ∃ st, Reach ⟨enc, share⟩ st gxFile ∧ gxFile.queue = [[fxA], [fxB]] ∧ Fresh st 1000 ∧
    Served ⟨enc, share⟩ st.compact gxFile.flush.metaflush [fxQ] ∧ ReqsOK st.compact gxFile.dsets [fxQ] ∧ Viewable [fxQ] ∧
    st.mbuf = none ∧ 1000 + Spec.queued gxFile < 2 ^ 63 := by
  have h : ∀ enc share compact, okWith (fun st => decide (Fresh st 1000 ∧ st.mbuf = none))
      (gxRun ⟨enc, share⟩ compact none) = true := by decide +kernel
  obtain ⟨st, h1, h2⟩ := okWith_iff (h enc share compact)
  rw [decide_eq_true_eq] at h2
  exact ⟨st, gx_reach h1, rfl, h2.1, (indexable_short (by decide) (by decide)).served (fx_request _).1.wf, (fx_request _).1, (fx_request st.compact).2, h2.2,
    by decide⟩

end Verif.Props
