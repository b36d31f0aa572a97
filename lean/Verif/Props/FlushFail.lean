import Verif.Lemmas.FlushFail
import Verif.Props.Crash

/-
C74: a flush that fails can be repeated.
-/

namespace Verif.Props

open Spec (AW AFile WriteOK MayWrite Fresh Small Indexable Served ReqsOK ReqsWF Viewable Repeats Reach ReachF GoesOn Returns)

/-! ### Failures before the dataset exists -/

/-- **C74.** From any state: a flush of the data that stops before it has created its log dataset changes nothing in the file, and
whatever is flushed next, the outcome is that of a flush without the failure. -/
theorem C74_same {g g' : GState} {doff : Nat} (h : g.flush (some .early) doff = .failed g') :
    (g'.st.disk = g.st.disk ∧ g'.st.lds = g.st.lds ∧ g'.st.mds = g.st.mds ∧ g'.st.metadirty = g.st.metadirty ∧ g'.stray = g.stray) ∧
    ∀ f doff', g'.flush f doff' = g.flush f doff' := by
  rw [gflush_early h]
  refine ⟨⟨rfl, rfl, rfl, rfl, rfl⟩, fun f doff' => ?_⟩
  unfold GState.flush
  simp only [aim_flush, aim_sizes, aim_aim]
  rfl

example (enc share compact : Bool) : ∃ st g', fxRun ⟨enc, share⟩ compact none = .ok st ∧ st.anyPending = true ∧
    GState.flush (some .early) 2000 ⟨st, false⟩ = .failed g' := by
  have h : ∀ enc share compact, okWith (fun st => st.anyPending && (match GState.flush (some .early) 2000 ⟨st, false⟩ with
      | .failed _ => true
      | _ => false)) (fxRun ⟨enc, share⟩ compact none) = true := by decide +kernel
  obtain ⟨st, h1, h2⟩ := okWith_iff (h enc share compact)
  rw [Bool.and_eq_true] at h2
  refine ⟨st, ?_⟩
  cases hg : GState.flush (some .early) 2000 ⟨st, false⟩ with
  | failed g' => exact ⟨g', h1, h2.1, rfl⟩
  | ok g' => rw [hg] at h2; simp at h2
  | ub => rw [hg] at h2; simp at h2

/-- **C74, partial: failures before the log or metadata dataset exists, histories that can be indexed.** In any history in which H5Fflush and
H5Dread fail any number of times in this way, a later read that flushes returns all writes, the last one of each element.
Missing: failures later on (`C74_data_violated`, `C74_meta_violated`) and failures of H5Fclose (`C70_retry_violated`). -/
theorem C74_readback_partial (cfg : Cfg) {g : GState} {a : AFile} (h : ReachF cfg g a)
    {coll : Bool} (hcoll : Spec.SeesQueue coll a) {doff mdoff : Nat} (hf : Fresh g.st doff) (hf' : Fresh g.st mdoff)
    (hd : doff + Spec.queued a ≤ mdoff)
    {qs : List RReq} (hi : Served cfg g.st.compact a.flush.metaflush qs)
     (hq : ReqsWF g.st.compact a.dsets qs) (hv : Viewable qs) (hp : Repeats (a.done ++ a.queue.flatten) qs) {r : Nat}
    (hr : r < a.queue.length) (hm : g.st.mbuf = none ∨ a.done ++ a.queue.flatten ≠ []) :
    ∃ g1, g.prepare none none coll doff mdoff = .ok g1 ∧
      (Small g1.st → Returns g1.st r qs (a.done ++ a.queue.flatten)) := by
  obtain ⟨hs, gh, inv⟩ := reachF_inv h
  have hc : coll = true ∨ a.queue.length = 1 ∨ a.epoch.flatten = [] ∨ a.queue.flatten = [] := by
    rcases hcoll with h | h | h
    · exact Or.inl h
    · exact Or.inr (Or.inl h)
    · exact Or.inr (Or.inr (Or.inr h))
  obtain ⟨st1, h1, h2⟩ := inv_prepare inv hf hf' hd hc
  obtain ⟨c1, c2⟩ := prepare_same h1
  have hpr : a.prepare coll = a.flush.metaflush := by
    unfold AFile.prepare
    split
    · rfl
    · rename_i hb
      simp only [Bool.or_eq_true, decide_eq_true_eq, not_or] at hb
      rw [flush_empty (hcoll.resolve_left hb.1 |>.resolve_left hb.2) inv.epoch_len]
  refine ⟨_, gprepare_none hs h1, fun hsm => ?_⟩
  obtain ⟨gh1, inv1⟩ := h2 hsm
  have hdone : (a.prepare coll).done = a.done ++ a.queue.flatten := by rw [hpr]; rfl
  rw [← hdone]
  refine inv_returns inv1 (by rw [c1, hpr]; exact hi) (by rw [c1, hpr]; exact hq) hv (by rw [hdone]; exact hp)
    (by rw [hpr]; simpa [AFile.flush, AFile.metaflush] using hr) (by rw [hpr]; simp [AFile.metaflush]) (by rw [c2, hdone]; exact hm)

/-- **C74, partial: the same for a read after H5Fclose and H5Fopen.** H5Fclose succeeds as soon as nothing fails any more. -/
theorem C74_close_partial (cfg : Cfg) {g : GState} {a : AFile} (h : ReachF cfg g a)
    {doff mdoff : Nat} (hf : Fresh g.st doff) (hf' : Fresh g.st mdoff) (hd : doff + Spec.queued a ≤ mdoff)
    {np : Nat} (h0 : 0 < np) (h1 : np < 2 ^ 31) (compact : Bool) (mbuf : Option Nat) (gone : Nat → Bool)
    {qs : List RReq} (hi : Served cfg compact (a.flush.metaflush.reopen np gone) qs)
     (hq : ReqsWF compact (a.dsets.mapIdx (fun i o => if gone i then none else o)) qs)
    (hv : Viewable qs) (hp : Repeats (a.done ++ a.queue.flatten) qs) {r : Nat} (hr : r < np)
    (hm : mbuf = none ∨ a.done ++ a.queue.flatten ≠ []) :
    ∃ g1, g.close none none doff mdoff = .ok g1 ∧
      (Small g1.st → Returns (g1.st.reopen np compact mbuf gone) r qs (a.done ++ a.queue.flatten)) := by
  obtain ⟨hs, gh, inv⟩ := reachF_inv h
  obtain ⟨st2, c1, _⟩ := inv_close inv hf hf' hd
  refine ⟨_, gclose_none hs doff mdoff c1, fun hsm => ?_⟩
  obtain ⟨_, gh1, inv1⟩ := reachF_inv (ReachF.reopen doff mdoff np compact mbuf gone h hf hf' hd h0 h1 (gclose_none hs doff mdoff c1) hsm)
  exact inv_returns inv1 hi hq hv hp (by simpa [AFile.reopen] using hr) (by simp [AFile.reopen]) hm

def failedWith (p : GState → Bool) : FOut → Bool
  | .failed g => p g
  | _ => false

def okayWith (p : GState → Bool) : FOut → Bool
  | .ok g => p g
  | _ => false

theorem failedWith_iff {p : GState → Bool} {x : FOut} (h : failedWith p x = true) : ∃ g, x = .failed g ∧ p g = true := by
  cases x with
  | failed g => exact ⟨g, rfl, h⟩
  | ok g => simp [failedWith] at h
  | ub => simp [failedWith] at h

theorem okayWith_iff {p : GState → Bool} {x : FOut} (h : okayWith p x = true) : ∃ g, x = .ok g ∧ p g = true := by
  cases x with
  | ok g => exact ⟨g, rfl, h⟩
  | failed g => simp [okayWith] at h
  | ub => simp [okayWith] at h

/-- Two processes. One write is flushed, another is queued: H5Fflush fails, then a read flushes the data and fails in the flush of the
metadata. Hypotheses of `C74_readback_partial` and `C74_close_partial`. -/
example (enc share compact : Bool) : ∃ g g1, ReachF ⟨enc, share⟩ g fxFile.flush ∧ fxFile.flush.done = [fxA, fxB] ∧
    g.st.compact = compact ∧ g.st.mbuf = none ∧ Fresh g.st 4000 ∧ Fresh g.st 5000 ∧
    4000 + Spec.queued fxFile.flush ≤ 5000 ∧ Served ⟨enc, share⟩ g.st.compact fxFile.flush.flush.metaflush [fxQ] ∧
    ReqsWF g.st.compact fxFile.flush.dsets [fxQ] ∧ Viewable [fxQ] ∧
    Repeats (fxFile.flush.done ++ fxFile.flush.queue.flatten) [fxQ] ∧
    g.prepare none none true 4000 5000 = .ok g1 ∧ Small g1.st := by
  have h : ∀ enc share compact, okWith (fun st => failedWith (fun g1 => failedWith (fun g2 =>
      okayWith (fun g4 => decide (Fresh st 2000 ∧ Fresh g1.st 2000 ∧ Small g2.st ∧
        g2.st.compact = compact ∧ g2.st.mbuf = none ∧ Fresh g2.st 4000 ∧ Fresh g2.st 5000 ∧ Small g4.st))
        (g2.prepare none none true 4000 5000))
        (g1.prepare none (some .early) true 2000 3000)) (GState.fileFlush (some .early) 2000 ⟨st, false⟩))
      (fxRun ⟨enc, share⟩ compact none) = true := by decide +kernel
  obtain ⟨st, h1, h2⟩ := okWith_iff (h enc share compact)
  obtain ⟨g1, h3, h4⟩ := failedWith_iff h2
  obtain ⟨g2, h5, h6⟩ := failedWith_iff h4
  obtain ⟨g4, h9, h10⟩ := okayWith_iff h6
  rw [decide_eq_true_eq] at h10
  obtain ⟨a1, a2, a4, a6, a7, a8, a9, a10⟩ := h10
  have r1 := ReachF.flushFails 2000 (reachF_of (fx_reach h1)) a1 h3
  have r2 := ReachF.prepareFails none (some .early) true 2000 3000 r1 a2 (Or.inl rfl) (Or.inr rfl) h5 a4
  rw [if_pos ⟨rfl, Or.inl rfl⟩] at r2
  exact ⟨g2, g4, r2, rfl, a6, a7, a8, a9, by decide, fx_served _ _, (fx_request _).1.wf, (fx_request compact).2,
    (fx_request compact).1.repeats _, h9, a10⟩

/-! ### Failures afterwards -/

/-- After a flush of the data that has created its log dataset and failed then, no flush of data ever succeeds: not in this session, with
whatever calls in between, nor after the file has been closed and opened again. Neither does the flush with which H5Fclose begins. The log has the datasets it had
before. -/
theorem C74_data_lost {g g1 g2 : GState} {d : Mem} {doff : Nat} (h : g.flush (some (.late d)) doff = .failed g1) (hg : GoesOn g1 g2) :
    g2.st.lds = g.st.lds ∧ ∀ {r : Nat} {k : Rank} {w : WReq}, g2.st.ranks[r]? = some k → w ∈ k.pending → w.data ≠ [] →
      ∀ f f' doff' mdoff' g3, g2.flush f doff' ≠ .ok g3 ∧ g2.fileFlush f doff' ≠ .ok g3 ∧ g2.close f f' doff' mdoff' ≠ .ok g3 := by
  have hs : g1.stray = true ∧ g1.st.lds = g.st.lds := by
    unfold GState.flush at h
    split at h
    · simp only at h
      split at h
      · simp at h
      · split at h
        · rename_i hs
          simp only [FOut.failed.injEq] at h
          subst h; exact ⟨hs, rfl⟩
        · simp only [FOut.failed.injEq] at h
          subst h; exact ⟨rfl, rfl⟩
    · simp at h
  obtain ⟨s1, s2⟩ := stray_goesOn hg hs.1
  refine ⟨s2.trans hs.2, fun {r k w} hr hw hd f f' doff' mdoff' g3 => ?_⟩
  have hne : ∀ g3, g2.flush f doff' ≠ .ok g3 := by
    intro g3 h3
    have h0 := (stray_flush s1 (Or.inl h3)).2.2 h3
    have h1 := sum_eq_zero.mp h0 k.localSize (List.mem_map_of_mem (List.mem_of_getElem? hr))
    unfold Rank.localSize at h1
    have h2 := sum_eq_zero.mp h1 w.data.length (List.mem_map_of_mem hw)
    exact hd (List.length_eq_zero_iff.mp h2)
  refine ⟨hne g3, ?_, ?_⟩
  · unfold GState.fileFlush
    rw [if_pos]
    · exact hne g3
    · unfold FState.anyPending
      rw [List.any_eq_true]
      exact ⟨k, List.mem_of_getElem? hr, by simpa using List.ne_nil_of_mem hw⟩
  · unfold GState.close
    cases hf : g2.flush f doff' with
    | ok g4 => exact (hne g4 hf).elim
    | failed g4 => simp [FOut.bind]
    | ub => simp [FOut.bind]

/-- **C74, violated.** Two processes, one write flushed, another queued. H5Fflush creates its log dataset and fails when it writes it.
From then on H5Fflush and H5Fclose fail as long as anything is queued, although no call they make fails of itself, and the log gets no
further data. (A second H5Fclose reports success and does nothing, `C70_retry_violated`.) -/
theorem C74_data_violated (enc share compact : Bool) : ∃ st g1, Reach ⟨enc, share⟩ st fxFile ∧ st.compact = compact ∧ Fresh st 2000 ∧
    GState.fileFlush (some (.late (fun _ => 0))) 2000 ⟨st, false⟩ = .failed g1 ∧ g1.st.anyPending = true ∧
    ∀ g2, GoesOn g1 g2 → g2.st.lds = st.lds ∧
      ∀ {r : Nat} {k : Rank} {w : WReq}, g2.st.ranks[r]? = some k → w ∈ k.pending → w.data ≠ [] →
      ∀ doff' mdoff' g3, g2.fileFlush none doff' ≠ .ok g3 ∧ g2.close none none doff' mdoff' ≠ .ok g3 := by
  have h : ∀ enc share compact, okWith (fun st => failedWith (fun g1 => decide (st.compact = compact ∧ Fresh st 2000 ∧
      g1.st.anyPending = true ∧ st.anyPending = true))
      (GState.fileFlush (some (.late (fun _ => 0))) 2000 ⟨st, false⟩)) (fxRun ⟨enc, share⟩ compact none) = true := by decide +kernel
  obtain ⟨st, h1, h2⟩ := okWith_iff (h enc share compact)
  obtain ⟨g1, h3, h4⟩ := failedWith_iff h2
  rw [decide_eq_true_eq] at h4
  obtain ⟨a1, a2, a3, a4⟩ := h4
  refine ⟨st, g1, fx_reach h1, a1, a2, h3, a3, fun g2 hg => ?_⟩
  have h3' : GState.flush (some (.late (fun _ => 0))) 2000 ⟨st, false⟩ = .failed g1 := by
    unfold GState.fileFlush at h3
    rw [if_pos a4] at h3
    exact h3
  obtain ⟨b1, b2⟩ := C74_data_lost h3' hg
  refine ⟨b1, fun {r k w} hr hw hd doff' mdoff' g3 => ?_⟩
  obtain ⟨_, c1, c2⟩ := b2 hr hw hd none none doff' mdoff' g3
  exact ⟨c1, c2⟩

/-- After a flush of the metadata that has created its dataset and failed before writing it, no read ever succeeds: not after a flush that
succeeds, with whatever calls in between, nor after the file has been closed and opened again. -/
theorem C74_meta_lost {g g1 g2 : GState} {d : Mem} {mdoff : Nat} (hd : g.st.metadirty = true) (hf : Fresh g.st mdoff)
    (h : g.metaflush (some (.late d)) mdoff = .failed g1) (hz : ∀ x ≥ mdoff, d x = 0) (hg : GoesOn g1 g2)
    {coll : Bool} {doff' mdoff' : Nat} (hf1 : Fresh g2.st doff') (hf2 : Fresh g2.st mdoff') {g3 : GState}
    (hp : g2.prepare none none coll doff' mdoff' = .ok g3) (fuel r : Nat) (fill : Nat → Option (List Byte)) (qs : List RReq)
    (mem mem' : Mem) : ¬ g3.st.reads fuel r fill qs mem (.ok mem') := by
  have b1 : Blank g1.st := blank_of_late hd h (by
    intro e he hne x hx _
    refine hz x (Nat.le_trans ?_ hx)
    unfold GState.metaflush at h
    simp only at h
    split at h
    · simp only [FOut.failed.injEq] at h
      subst h
      simp only [List.mem_append, List.mem_singleton] at he
      rcases he with he | he
      · exact (hne he).elim
      · rw [he]
    · simp at h) hf
  obtain ⟨b3, b4⟩ := blank_prepare (blank_goesOn hg b1) hf1 hf2 hp
  rintro (⟨raw, st', hs, h1, _⟩ | ⟨_, h2⟩ | ⟨_, h2⟩)
  · exact blank_search b3 b4 _ _ _ h1
  · simp at h2
  · simp at h2

/-- **C74, violated.** One process has written a dataset and read it back. It writes again and flushes; the flush of the metadata creates
its dataset and fails when it writes it. The same flush succeeds when repeated; but nothing can be read any more, neither the first write nor
the second, in this session or later. -/
theorem C74_meta_violated (enc share compact : Bool) : ∃ st st1 g g1 g2, Reach ⟨enc, share⟩ st (oneFile nxW) ∧
    st.prepare true 1000 2000 = .ok st1 ∧ Returns st1 0 dupQ [nxW] ∧
    ReachF ⟨enc, share⟩ g (((oneFile nxW).prepare true).write 0 lfW').flush ∧ GoesOn ⟨st1, false⟩ g ∧ Fresh g.st 4000 ∧
    g.metaflush (some (.late (fun _ => 0))) 4000 = .failed g1 ∧ g1.metaflush none 5000 = .ok g2 ∧
    (∃ g3, g1.prepare none none true 5000 6000 = .ok g3) ∧
    ∀ g2, GoesOn g1 g2 → ∀ coll doff' mdoff', Fresh g2.st doff' → Fresh g2.st mdoff' →
      ∀ g3, g2.prepare none none coll doff' mdoff' = .ok g3 →
        ∀ fuel r fill qs mem mem', ¬ g3.st.reads fuel r fill qs mem (.ok mem') := by
  have h : ∀ enc share compact, okWith (fun st => okWith (fun st1 => okWith (fun s => okayWith (fun g => failedWith (fun g1 =>
      okayWith (fun _ => okayWith (fun _ => decide (Fresh st 1000 ∧ Fresh st 2000 ∧ Small st1 ∧ Fresh s 3000 ∧ Small g.st ∧ Fresh g.st 4000 ∧
        g.st.metadirty = true ∧ st.mbuf = none ∧ st.compact = compact ∧ s.anyPending = true))
        (g1.prepare none none true 5000 6000))
        (g1.metaflush none 5000)) (g.metaflush (some (.late (fun _ => 0))) 4000))
        (GState.fileFlush none 3000 ⟨s, false⟩))
        (st1.write 0 0 lfW'.bs lfW'.data)) (st.prepare true 1000 2000)) (oneRun ⟨enc, share⟩ compact nxW) = true := by decide +kernel
  obtain ⟨st, h1, h2⟩ := okWith_iff (h enc share compact)
  obtain ⟨st1, h3, h4⟩ := okWith_iff h2
  obtain ⟨s, h5, h6⟩ := okWith_iff h4
  obtain ⟨g, h7, h8⟩ := okayWith_iff h6
  obtain ⟨g1, h9, h10⟩ := failedWith_iff h8
  obtain ⟨g2, h11, h12⟩ := okayWith_iff h10
  obtain ⟨g3, h13, h14⟩ := okayWith_iff h12
  rw [decide_eq_true_eq] at h14
  obtain ⟨a1, a2, a3, a4, a5, a6, a7, a8, a9, a10⟩ := h14
  have r0 := one_reach (nx_ok ⟨enc, share⟩) rfl h1
  have hret : Returns st1 0 dupQ [nxW] := by
    obtain ⟨g1, e1, e2⟩ := C74_readback_partial ⟨enc, share⟩ (reachF_of r0) (coll := true) (Or.inl rfl) a1 a2 (by decide)
      ((dup_indexable _ _).served (dup_request _)) (dup_request _) dup_view dup_repeats (r := 0) (by decide) (Or.inl a8)
    rw [gprepare_none (g := ⟨st, false⟩) rfl h3] at e1
    simp only [FOut.ok.injEq] at e1
    subst e1
    exact e2 a3
  have r1 := ReachF.prepare true 1000 2000 (reachF_of r0) a1 a2 (by decide) (Or.inl rfl) (gprepare_none (g := ⟨st, false⟩) rfl h3) a3
  have r2 := ReachF.write 0 lfW' r1 (mayWrite_of (lf_ok _) rfl (p := []) (q := []) rfl rfl (by decide) (by simp)) h5
  have r3 := ReachF.flush 3000 r2 a4 h7 a5
  have hfl : GState.flush none 3000 ⟨s, false⟩ = .ok g := by
    unfold GState.fileFlush at h7
    rw [if_pos a10] at h7
    exact h7
  have go := GoesOn.flush none 3000 (GoesOn.write 0 0 lfW'.bs lfW'.data (GoesOn.refl ⟨st1, false⟩) h5) a4 (Or.inl hfl)
  refine ⟨st, st1, g, g1, g2, r0, h3, hret, r3, go, a6, h9, h11, ⟨g3, h13⟩, ?_⟩
  intro g2 hg coll doff' mdoff' hf1 hf2 g3 hp fuel r fill qs mem mem'
  exact C74_meta_lost a7 a6 h9 (fun _ _ => rfl) hg hf1 hf2 hp fuel r fill qs mem mem'

end Verif.Props
