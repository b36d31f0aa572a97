import Verif.Lemmas.WriteFail
import Verif.Props.Crash

/-
C75: a write that fails has no effect.
-/

namespace Verif.Props

open Spec (AW AFile WriteOK MayWrite Fresh Small Indexable Served ReqsOK ReqsWF Viewable Repeats Reach ReachW Returns Unlike Traceless)

/-! ### Failures that do no harm -/

/-- **C75.** In any history: a write that fails and leaves nothing leaves the state of the file as it was, on all processes. -/
theorem C75_same {cfg : Cfg} {st st' : FState} {F : List (List AW)} {a : AFile} (h : ReachW cfg st F a) {r : Nat} {w : AW}
    (hw : WriteOK cfg w) (hd : a.dsets[w.did]? = some (some w.d)) (ht : Traceless cfg a r w)
    (hf : st.writeFails r w.did w.bs = .ok st') : st' = st := by
  obtain ⟨s, hr, i⟩ := reachW_sim h
  obtain ⟨g, inv⟩ := reach_inv hr
  obtain ⟨k, d, k', e1, e2, e3, rfl⟩ := writeFails_parts hf
  have hcfg : st.cfg = cfg := (bare_get FState.cfg (fun _ => rfl) i.bare).trans inv.cfgEq
  have hds : st.dsets = a.dsets := (bare_get FState.dsets (fun _ => rfl) i.bare).trans inv.dsets
  rw [hds, hd] at e2
  simp only [Option.some.injEq] at e2
  subst e2
  rw [hcfg] at e3
  have := traceless_same i hw ht e1 e3
  subst this
  rw [set_same e1]

/-- **C75, partial: no write repeats the selection of a failed one before the next flush of the metadata.** In any history in which any
writes fail, the file is the one that the writes that succeed give: there is a history without failures and with the same abstract file
whose state differs in the table of selections at most. Missing: `C75_retry_violated`, `C75_other_violated`, `C75_mixup_violated`. -/
theorem C75_absent_partial {cfg : Cfg} {st : FState} {F : List (List AW)} {a : AFile} (h : ReachW cfg st F a) :
    ∃ s, Reach cfg s a ∧ st.disk = s.disk ∧ st.lds = s.lds ∧ st.mds = s.mds ∧ st.idx = s.idx ∧ st.dsets = s.dsets ∧
      List.Forall₂ (fun k k' => k.wreqs = k'.wreqs ∧ k.nflushed = k'.nflushed ∧ k.mdsize = k'.mdsize) st.ranks s.ranks := by
  obtain ⟨s, hr, i⟩ := reachW_sim h
  refine ⟨s, hr, bare_get FState.disk (fun _ => rfl) i.bare, bare_get FState.lds (fun _ => rfl) i.bare, bare_get FState.mds (fun _ => rfl) i.bare, bare_get FState.idx (fun _ => rfl) i.bare,
    bare_get FState.dsets (fun _ => rfl) i.bare, ?_⟩
  rw [List.forall₂_iff_get]
  refine ⟨i.ranksLen, ?_⟩
  intro j h1 h2
  obtain ⟨k', e1, e2⟩ := i.rank (List.getElem?_eq_getElem h1)
  have e3 : s.ranks.get ⟨j, h2⟩ = k' := by
    rw [List.getElem?_eq_getElem h2] at e1
    simpa using e1
  rw [e3]
  exact ⟨rank_get Rank.wreqs (fun _ => rfl) e2, rank_get Rank.nflushed (fun _ => rfl) e2, rank_get Rank.mdsize (fun _ => rfl) e2⟩

/-- A write with a selection unlike those of the failed ones succeeds, and its process may go on. -/
theorem C75_write {cfg : Cfg} {st : FState} {F : List (List AW)} {a : AFile} (h : ReachW cfg st F a) {r : Nat} {w : AW}
    (hw : MayWrite cfg a r w) (hr : r < a.queue.length) (hu : cfg.share = true → ∀ f, F[r]? = some f → ∀ v ∈ f, Unlike cfg w v) :
    ∃ st', st.write r w.did w.bs w.data = .ok st' ∧ ReachW cfg st' F (a.write r w) := by
  obtain ⟨s, hrs, i⟩ := reachW_sim h
  obtain ⟨g, inv⟩ := reach_inv hrs
  obtain ⟨s', e1, _⟩ := reach_write hrs hw hr
  obtain ⟨k, d, k', f1, f2, f3, rfl⟩ := writeOk_parts e1
  have hcfg : st.cfg = s.cfg := bare_get FState.cfg (fun _ => rfl) i.bare
  have hds : st.dsets = s.dsets := bare_get FState.dsets (fun _ => rfl) i.bare
  have hlt : r < st.ranks.length := by rw [i.ranksLen]; exact (List.getElem?_eq_some_iff.mp f1).1
  obtain ⟨k0, g1, g2⟩ := i.rank (List.getElem?_eq_getElem hlt)
  rw [f1] at g1
  simp only [Option.some.injEq] at g1
  subst g1
  have hf : F[r]? = some (F[r]'(by rw [i.len]; exact hlt)) := List.getElem?_eq_getElem _
  rw [inv.dsets, hw.dset] at f2
  simp only [Option.some.injEq] at f2
  subst f2
  rw [inv.cfgEq] at f3
  obtain ⟨k1, m1, _⟩ := writeRank_bare (f := F[r]'(by rw [i.len]; exact hlt)) hw.ok g2.symm
    (fun hs w' mo h1 h2 => (i.hash hs r _ k _ (List.getElem?_eq_getElem hlt) f1 hf w' mo h1 h2).symm) (fun hs => hu hs _ hf) f3
  have hst : st.write r w.did w.bs w.data = .ok { st with ranks := st.ranks.set r k1 } := by
    unfold FState.write
    rw [List.getElem?_eq_getElem hlt, hds, inv.dsets, hw.dset, hcfg, inv.cfgEq]
    simp only [m1, Res.ok_bind, Res.pure_eq]
  exact ⟨_, hst, ReachW.write r w h hw hu hst⟩

/-- **C75, partial: as above, and histories that can be indexed.** A later read that flushes returns the writes that have succeeded, the last
one of each element. -/
theorem C75_readback_partial (cfg : Cfg) {st : FState} {F : List (List AW)} {a : AFile} (h : ReachW cfg st F a)
    {coll : Bool} (hcoll : Spec.SeesQueue coll a) {doff mdoff : Nat} (hf : Fresh st doff) (hf' : Fresh st mdoff)
    (hd : doff + Spec.queued a ≤ mdoff) {qs : List RReq} (hi : Served cfg st.compact a.flush.metaflush qs)
     (hq : ReqsWF st.compact a.dsets qs) (hv : Viewable qs) (hp : Repeats (a.done ++ a.queue.flatten) qs) {r : Nat}
    (hr : r < a.queue.length) (hm : st.mbuf = none ∨ a.done ++ a.queue.flatten ≠ []) :
    ∃ st1, st.prepare coll doff mdoff = .ok st1 ∧ (Small st1 → Returns st1 r qs (a.done ++ a.queue.flatten)) := by
  obtain ⟨s, hrs, i⟩ := reachW_sim h
  have hc : s.compact = st.compact := (bare_get FState.compact (fun _ => rfl) i.bare).symm
  have hb : s.mbuf = st.mbuf := (bare_get FState.mbuf (fun _ => rfl) i.bare).symm
  obtain ⟨s1, e1, e2⟩ := C02_repeated_partial cfg hrs hcoll (i.fresh hf) (i.fresh hf') hd (by rw [hc]; exact hi) (by rw [hc]; exact hq) hv hp
    hr (by rw [hb]; exact hm)
  obtain ⟨st1, f1, f2⟩ := bare_op (op := fun st => st.prepare coll doff mdoff) (fun st => prepare_bare st coll doff mdoff) i.bare.symm e1
  exact ⟨st1, f1, fun hsm => returns_bare f2.symm (e2 (small_bare f2.symm hsm))⟩

/-- **C75, partial: the same for a read after H5Fclose and H5Fopen.** -/
theorem C75_close_partial (cfg : Cfg) {st : FState} {F : List (List AW)} {a : AFile} (h : ReachW cfg st F a)
    {doff mdoff : Nat} (hf : Fresh st doff) (hf' : Fresh st mdoff) (hd : doff + Spec.queued a ≤ mdoff)
    {np : Nat} (h0 : 0 < np) (h1 : np < 2 ^ 31) (compact : Bool) (mbuf : Option Nat) (gone : Nat → Bool)
    {qs : List RReq} (hi : Served cfg compact (a.flush.metaflush.reopen np gone) qs)
     (hq : ReqsWF compact (a.dsets.mapIdx (fun i o => if gone i then none else o)) qs)
    (hv : Viewable qs) (hp : Repeats (a.done ++ a.queue.flatten) qs) {r : Nat} (hr : r < np)
    (hm : mbuf = none ∨ a.done ++ a.queue.flatten ≠ []) :
    ∃ st1, st.close doff mdoff = .ok st1 ∧
      (Small st1 → Returns (st1.reopen np compact mbuf gone) r qs (a.done ++ a.queue.flatten)) := by
  obtain ⟨s, hrs, i⟩ := reachW_sim h
  obtain ⟨g, inv⟩ := reach_inv hrs
  obtain ⟨s2, c1, _⟩ := inv_close inv (i.fresh hf) (i.fresh hf') hd
  refine ⟨_, by rw [← close_bare, i.bare, close_bare]; exact c1, fun hsm => ?_⟩
  obtain ⟨gh1, inv1⟩ := reach_inv (Reach.reopen doff mdoff np compact mbuf gone hrs (i.fresh hf) (i.fresh hf') hd h0 h1 c1 hsm)
  exact inv_returns inv1 hi hq hv hp (by simpa [AFile.reopen] using hr) (by simp [AFile.reopen]) hm

/-- The first failure: it is well defined whenever the write would have been. -/
theorem C75_defined {cfg : Cfg} {st : FState} {a : AFile} (h : Reach cfg st a) {r : Nat} {w : AW} (hw : MayWrite cfg a r w)
    (hr : r < a.queue.length) : ∃ st', st.writeFails r w.did w.bs = .ok st' := by
  obtain ⟨st1, e1, _⟩ := reach_write h hw hr
  obtain ⟨k, d, k', f1, f2, f3, _⟩ := writeOk_parts e1
  unfold FState.writeFails
  rw [f1, f2]
  simp only
  unfold writeRank at f3
  unfold writeRankFails
  split at f3
  · rename_i hb
    rw [if_pos hb]
    exact ⟨_, rfl⟩
  · rename_i hb
    rw [if_neg hb]
    obtain ⟨x, hx, _⟩ := Res.bind_ok f3
    obtain ⟨y, hy⟩ : ∃ y, dedup st.cfg (mkWReq st.cfg d w.did w.bs k.mdsize []) k = .ok y := by
      unfold dedup at hx ⊢
      split at hx
      · rename_i hc
        rw [if_pos (by exact hc)]
        obtain ⟨o, ho, _⟩ := Res.bind_ok hx
        rw [show hashFind (mkWReq st.cfg d w.did w.bs k.mdsize []) k.hash = .ok o from by rw [← ho]; exact find_data _ _ _ _ _ _ _ _]
        cases o <;> exact ⟨_, rfl⟩
      · rename_i hc
        rw [if_neg (by exact hc)]
        exact ⟨_, rfl⟩
    rw [hy]
    exact ⟨_, rfl⟩

/-! ### Failures that do -/

/-- The file of one process with one dataset of ten elements, or two of them. -/
def wfState (cfg : Cfg) (compact : Bool) : FState := (FState.create cfg compact none 1 (fun _ => 0)).addDset nxD
def wfState2 (cfg : Cfg) (compact : Bool) : FState := (wfState cfg compact).addDset nxD
def wfFile : AFile := (AFile.create 1).addDset nxD
def wfFile2 : AFile := wfFile.addDset nxD

theorem wf_reach (cfg : Cfg) (compact : Bool) : Reach cfg (wfState cfg compact) wfFile :=
  Reach.addDset nxD (Reach.create compact none 1 _ (by decide) (by decide))

theorem wf_reach2 (cfg : Cfg) (compact : Bool) : Reach cfg (wfState2 cfg compact) wfFile2 :=
  Reach.addDset nxD (wf_reach cfg compact)

/-- Both halves of a dataset, and the same of the other dataset. -/
def wfS : AW := ⟨0, nxD, [⟨[5], [5]⟩], [15, 16, 17, 18, 19]⟩
def wfT : AW := ⟨0, nxD, [⟨[0], [5]⟩], [20, 21, 22, 23, 24]⟩
def wfQ : RReq := ⟨0, nxD, [⟨[0], [10]⟩], 100⟩

theorem wfS_ok (cfg : Cfg) : WriteOK cfg wfS := by
  refine writeOK_one rfl (by decide) (by decide) (by decide) ⟨by decide, by decide, ?_⟩ (by decide) rfl (by decide)
  intro b hb
  simp [wfS] at hb
  subst hb
  constructor <;> decide

theorem wfT_ok (cfg : Cfg) : WriteOK cfg wfT := by
  refine writeOK_one rfl (by decide) (by decide) (by decide) ⟨by decide, by decide, ?_⟩ (by decide) rfl (by decide)
  intro b hb
  simp [wfT] at hb
  subst hb
  constructor <;> decide

theorem wf_unlike (cfg : Cfg) : Unlike cfg wfT wfS := by
  refine ⟨?_, fun _ h => by simp [wfT] at h⟩
  rintro (h | ⟨h, _⟩)
  · simp [wfS, wfT] at h
  · exact absurd h.1 (by decide)

/-- The write of one half fails, the other half is written, the write of the latter is repeated and fails. -/
def wfRun (cfg : Cfg) (compact : Bool) : Res FState := do
  let s ← (wfState cfg compact).writeFails 0 0 wfS.bs
  let s ← s.write 0 0 wfT.bs wfT.data
  s.writeFails 0 0 wfT.bs

theorem wf_run {cfg : Cfg} {compact : Bool} {st : FState} (h : wfRun cfg compact = .ok st) :
    ReachW cfg st [[wfS]] (wfFile.write 0 wfT) := by
  unfold wfRun at h
  obtain ⟨s1, h1, h⟩ := Res.bind_ok h
  obtain ⟨s2, h2, h⟩ := Res.bind_ok h
  have r0 : ReachW cfg (wfState cfg compact) [[]] wfFile :=
    ReachW.addDset nxD (ReachW.create compact none 1 _ (by decide) (by decide))
  have r1 := ReachW.writeFails 0 wfS r0 (wfS_ok cfg) rfl h1
  have r2 := ReachW.write 0 wfT r1 (mayWrite_of (wfT_ok _) rfl (p := []) (q := []) rfl rfl (by decide) (by simp))
    (by
      intro _ f hf v hv
      have : f = [wfS] := by simpa [List.modify_cons] using hf.symm
      subst this
      simp at hv
      subst hv
      exact wf_unlike cfg) h2
  exact ReachW.traceless 0 wfT r2 (wfT_ok cfg) rfl (Or.inr (Or.inl ⟨[], [wfT], wfT, rfl, rfl, by simp, rfl, rfl⟩)) h

theorem wf_request (compact : Bool) : ReqsOK compact (wfFile.write 0 wfT).dsets [wfQ] ∧ Viewable [wfQ] := by
  refine ⟨⟨?_, ?_, ?_, ?_, ?_, ?_, ?_, ?_⟩, ⟨?_, ?_, ?_⟩⟩
  · simp [wfFile, wfQ, wfT, AFile.write, AFile.addDset, AFile.create]
  · decide
  · decide
  · decide
  · intro _ q hq b hb n hn
    have : ∀ q ∈ [wfQ], ∀ b ∈ q.bs, ∀ n ∈ b.start, n < 2 ^ 31 := by decide
    exact this q hq b hb n (List.mem_of_head? hn)
  · simp [wfQ]
  · simp
  · simp
  · simp [wfQ, Spec.Alike, Spec.Ends]
  · simp [wfQ, Spec.Alike, Spec.Ends]
  · exact Or.inl (by decide)

/-- Hypotheses of `C75_same` (last call), `C75_absent_partial`, `C75_readback_partial` and `C75_close_partial`. -/
example (enc share compact : Bool) : ∃ st st0 st1, ReachW ⟨enc, share⟩ st [[wfS]] (wfFile.write 0 wfT) ∧
    Traceless ⟨enc, share⟩ (wfFile.write 0 wfT) 0 wfT ∧ st.writeFails 0 0 wfT.bs = .ok st0 ∧
    (wfFile.write 0 wfT).queue = [[wfT]] ∧ st.compact = compact ∧ st.mbuf = none ∧ Fresh st 1000 ∧ Fresh st 2000 ∧
    1000 + Spec.queued (wfFile.write 0 wfT) ≤ 2000 ∧ Spec.SeesQueue fileMode (wfFile.write 0 wfT) ∧
    Served ⟨enc, share⟩ st.compact (wfFile.write 0 wfT).flush.metaflush [wfQ] ∧
    ReqsWF st.compact (wfFile.write 0 wfT).dsets [wfQ] ∧ Viewable [wfQ] ∧
    Repeats ((wfFile.write 0 wfT).done ++ (wfFile.write 0 wfT).queue.flatten) [wfQ] ∧
    st.prepare fileMode 1000 2000 = .ok st1 ∧ Small st1 := by
  have h : ∀ enc share compact, okWith (fun st => okWith (fun _ => okWith (fun st1 => decide (Small st1 ∧
      st.compact = compact ∧ st.mbuf = none ∧ Fresh st 1000 ∧ Fresh st 2000)) (st.prepare fileMode 1000 2000))
      (st.writeFails 0 0 wfT.bs)) (wfRun ⟨enc, share⟩ compact) = true := by decide +kernel
  obtain ⟨st, h1, h2⟩ := okWith_iff (h enc share compact)
  obtain ⟨st0, h3, h4⟩ := okWith_iff h2
  obtain ⟨st1, h5, h6⟩ := okWith_iff h4
  rw [decide_eq_true_eq] at h6
  obtain ⟨a1, a2, a3, a4, a5⟩ := h6
  exact ⟨st, st0, st1, wf_run h1, Or.inr (Or.inl ⟨[], [wfT], wfT, rfl, rfl, by simp, rfl, rfl⟩), h3, rfl, a2, a3, a4, a5, by decide,
    Or.inr (Or.inl rfl), (indexable_short (by decide) (by decide)).served (wf_request _).1.wf, (wf_request _).1.wf, (wf_request compact).2, (wf_request compact).1.repeats _, h5, a1⟩

/-- Hypotheses of `C75_write` and `C75_defined`: the other half after the failure. -/
example (cfg : Cfg) (compact : Bool) : ∃ st, Reach cfg (wfState cfg compact) wfFile ∧ MayWrite cfg wfFile 0 wfS ∧
    (wfState cfg compact).writeFails 0 0 wfS.bs = .ok st ∧ ReachW cfg st [[wfS]] wfFile ∧ MayWrite cfg wfFile 0 wfT ∧ Unlike cfg wfT wfS := by
  have hm : MayWrite cfg wfFile 0 wfS := mayWrite_of (wfS_ok _) rfl (p := []) (q := []) rfl rfl (by decide) (by simp)
  obtain ⟨st, h⟩ := C75_defined (wf_reach cfg compact) hm (by decide)
  exact ⟨st, wf_reach cfg compact, hm, h,
    ReachW.writeFails 0 wfS (ReachW.addDset nxD (ReachW.create compact none 1 _ (by decide) (by decide)) : ReachW cfg (wfState cfg compact) [[]] wfFile)
      (wfS_ok cfg) rfl h,
    mayWrite_of (wfT_ok _) rfl (p := []) (q := []) rfl rfl (by decide) (by simp), wf_unlike cfg⟩

/-- The outcome of a read of the whole dataset into a buffer full of nines, as a list of the bytes. -/
def wfRead (st : FState) : Res (List Byte) :=
  match st.search 0 0 [wfQ] with
  | .ok raw => if sortedB raw.1 then resMap (fun m => (List.range 10).map (fun i => m (100 + i)))
      (readHitsF st.disk raw.1 (prefill (fun _ => none) [wfQ] (fun _ => 9))) else .err
  | .err => .err
  | .ub => .ub

/-- `wfRead` is what every read gives. -/
theorem wf_reads {st : FState} (hm : st.mbuf = none) {bs : List Byte} (h : wfRead st = .ok bs) (fuel : Nat) {out : Res Mem}
    (ho : st.reads fuel 0 (fun _ => none) [wfQ] (fun _ => 9) out) :
    ∃ m, out = .ok m ∧ (List.range 10).map (fun i => m (100 + i)) = bs := by
  unfold wfRead at h
  split at h
  · rename_i raw hr
    split at h
    · rename_i hs
      obtain ⟨m, h1, h2⟩ := resMap_ok h
      rw [search_fuel hm 0 fuel] at hr
      exact ⟨m, ((reads_unique hr hs).mp ho).trans (readHitsF_eq h1), h2⟩
    · simp at h
  · simp at h
  · simp at h

/-- The metadata cannot be loaded, or the search in the index crashes. -/
def wfCrash (st : FState) : Bool :=
  decide (st.mbuf = none ∧ st.idx = [none]) &&
    (if st.compact then isUb (st.search 0 0 [wfQ]) else isUb (loadAll st.dsets st.cfg.share st.disk st.mds (Idx.empty st.compact)))

theorem wf_crash {st : FState} (h : wfCrash st = true) {fuel : Nat} {fill : Nat → Option (List Byte)} {qs : List RReq} {mem : Mem}
    {out : Res Mem} (hq : st.compact = true → qs = [wfQ]) (ho : st.reads fuel 0 fill qs mem out) : out = .ub := by
  unfold wfCrash at h
  rw [Bool.and_eq_true, decide_eq_true_eq] at h
  obtain ⟨⟨hm, hi⟩, h⟩ := h
  have hu : st.search fuel 0 qs = .ub := by
    split at h
    · rename_i hc
      rw [hq hc, search_fuel hm fuel 0]
      exact isUb_iff h
    · unfold FState.search
      rw [hm, hi]
      simp only [List.getElem?_cons_zero, isUb_iff h]
      rfl
  rcases ho with ⟨_, _, _, e, _⟩ | ⟨e, _⟩ | ⟨_, e⟩
  · rw [hu] at e; simp at e
  · rw [hu] at e; simp at e
  · exact e

/-- **C75, violated: a write that is repeated.** One half has been written. The write of the other half fails, as it does when the limit of
H5Pset_nb_buffer_size is reached; the application flushes and writes again, with success. With metadata sharing on
every read crashes then: of anything in the file with the list index, of this dataset with the compact index; also after the file has
been closed and opened again. -/
theorem C75_retry_violated (enc compact : Bool) : ∃ st0 st1 st2 st st3 st4, Reach ⟨enc, true⟩ st0 (wfFile.write 0 wfT) ∧
    MayWrite ⟨enc, true⟩ (wfFile.write 0 wfT) 0 wfS ∧ st0.writeFails 0 0 wfS.bs = .ok st1 ∧ Fresh st1 1000 ∧
    st1.fileFlush 1000 = .ok st2 ∧ st2.write 0 0 wfS.bs wfS.data = .ok st ∧ Fresh st 2000 ∧ Fresh st 3000 ∧
    st.prepare fileMode 2000 3000 = .ok st3 ∧ Small st3 ∧ st.close 2000 3000 = .ok st4 ∧ Small st4 ∧
    ∀ s, s = st3 ∨ s = st4.reopen 1 compact none (fun _ => false) → ∀ fuel fill qs mem out, (compact = true → qs = [wfQ]) →
      s.reads fuel 0 fill qs mem out → out = .ub := by
  have h : ∀ enc compact, okWith (fun st0 => okWith (fun st1 => okWith (fun st2 => okWith (fun st => okWith (fun st3 => okWith (fun st4 =>
      decide (Fresh st1 1000 ∧ Fresh st 2000 ∧ Fresh st 3000 ∧ Small st3 ∧ Small st4 ∧ st3.compact = compact) &&
        (wfCrash st3 && wfCrash (st4.reopen 1 compact none (fun _ => false))))
      (st.close 2000 3000)) (st.prepare fileMode 2000 3000)) (st2.write 0 0 wfS.bs wfS.data)) (st1.fileFlush 1000))
      (st0.writeFails 0 0 wfS.bs)) ((wfState ⟨enc, true⟩ compact).write 0 0 wfT.bs wfT.data) = true := by decide +kernel
  obtain ⟨st0, h1, h2⟩ := okWith_iff (h enc compact)
  obtain ⟨st1, h3, h4⟩ := okWith_iff h2
  obtain ⟨st2, h5, h6⟩ := okWith_iff h4
  obtain ⟨st, h7, h8⟩ := okWith_iff h6
  obtain ⟨st3, h9, h10⟩ := okWith_iff h8
  obtain ⟨st4, h11, h12⟩ := okWith_iff h10
  rw [Bool.and_eq_true, decide_eq_true_eq] at h12
  obtain ⟨⟨a1, a2, a3, a4, a5, a6⟩, a7⟩ := h12
  have r0 := Reach.write 0 wfT (wf_reach ⟨enc, true⟩ compact) (mayWrite_of (wfT_ok _) rfl (p := []) (q := []) rfl rfl (by decide) (by simp)) h1
  refine ⟨st0, st1, st2, st, st3, st4, r0, mayWrite_of (wfS_ok _) rfl (p := []) (q := [wfT]) rfl rfl (by decide)
    (by intro w hw; simp at hw; subst hw; intro h; simp [wfS] at h), h3, a1, h5, h7, a2, a3, h9, a4, h11, a5, ?_⟩
  intro s hs fuel fill qs mem out hq ho
  rw [Bool.and_eq_true] at a7
  rcases hs with rfl | rfl
  · exact wf_crash a7.1 (by rw [a6]; exact hq) ho
  · exact wf_crash a7.2 hq ho

/-- **C75, violated: another write.** The write of one half fails; the other half is written; the write that has failed is repeated. With metadata
sharing on its data are returned in place of those of the other write, whose data are lost, and its own half is not in the file: with both
indexes, also after the file has been closed and opened again. -/
theorem C75_mixup_violated (enc compact : Bool) : ∃ st1 st2 st st3 st4, Reach ⟨enc, true⟩ (wfState ⟨enc, true⟩ compact) wfFile ∧
    MayWrite ⟨enc, true⟩ wfFile 0 wfS ∧ MayWrite ⟨enc, true⟩ wfFile 0 wfT ∧ MayWrite ⟨enc, true⟩ (wfFile.write 0 wfT) 0 wfS ∧
    (wfState ⟨enc, true⟩ compact).writeFails 0 0 wfS.bs = .ok st1 ∧ st1.write 0 0 wfT.bs wfT.data = .ok st2 ∧
    st2.write 0 0 wfS.bs wfS.data = .ok st ∧ Fresh st 2000 ∧ Fresh st 3000 ∧
    st.prepare fileMode 2000 3000 = .ok st3 ∧ Small st3 ∧ st.close 2000 3000 = .ok st4 ∧ Small st4 ∧
    ∀ s, s = st3 ∨ s = st4.reopen 1 compact none (fun _ => false) → ∀ fuel out, s.reads fuel 0 (fun _ => none) [wfQ] (fun _ => 9) out →
      ∃ m, out = .ok m ∧ (List.range 10).map (fun i => m (100 + i)) = [15, 16, 17, 18, 19, 9, 9, 9, 9, 9] := by
  have h : ∀ enc compact, okWith (fun st1 => okWith (fun st2 => okWith (fun st => okWith (fun st3 => okWith (fun st4 =>
      decide (Fresh st 2000 ∧ Fresh st 3000 ∧ Small st3 ∧ Small st4 ∧ st3.mbuf = none) &&
        decide (wfRead st3 = .ok [15, 16, 17, 18, 19, 9, 9, 9, 9, 9] ∧
          wfRead (st4.reopen 1 compact none (fun _ => false)) = .ok [15, 16, 17, 18, 19, 9, 9, 9, 9, 9]))
      (st.close 2000 3000)) (st.prepare fileMode 2000 3000)) (st2.write 0 0 wfS.bs wfS.data)) (st1.write 0 0 wfT.bs wfT.data))
      ((wfState ⟨enc, true⟩ compact).writeFails 0 0 wfS.bs) = true := by decide +kernel
  obtain ⟨st1, h3, h4⟩ := okWith_iff (h enc compact)
  obtain ⟨st2, h5, h6⟩ := okWith_iff h4
  obtain ⟨st, h7, h8⟩ := okWith_iff h6
  obtain ⟨st3, h9, h10⟩ := okWith_iff h8
  obtain ⟨st4, h11, h12⟩ := okWith_iff h10
  rw [Bool.and_eq_true, decide_eq_true_eq, decide_eq_true_eq] at h12
  obtain ⟨⟨a1, a2, a3, a4, a5⟩, a6, a7⟩ := h12
  refine ⟨st1, st2, st, st3, st4, wf_reach _ _, mayWrite_of (wfS_ok _) rfl (p := []) (q := []) rfl rfl (by decide) (by simp),
    mayWrite_of (wfT_ok _) rfl (p := []) (q := []) rfl rfl (by decide) (by simp), mayWrite_of (wfS_ok _) rfl (p := []) (q := [wfT]) rfl rfl (by decide)
    (by intro w hw; simp at hw; subst hw; intro h; simp [wfS] at h), h3, h5, h7, a1, a2, h9, a3, h11, a4, ?_⟩
  intro s hs fuel out ho
  rcases hs with rfl | rfl
  · exact wf_reads a5 a6 fuel ho
  · exact wf_reads rfl a7 fuel ho

/-- **C75, violated: another dataset.** Two datasets of the same shape. A write to the second one fails, for example because it has a filter
that the connector does not know. With metadata sharing on, the same selection of the first dataset is written then with success, and every
read crashes as in `C75_retry_violated`. -/
theorem C75_other_violated (enc compact : Bool) : ∃ st1 st st3 st4, Reach ⟨enc, true⟩ (wfState2 ⟨enc, true⟩ compact) wfFile2 ∧
    MayWrite ⟨enc, true⟩ wfFile2 0 { wfS with did := 1 } ∧ MayWrite ⟨enc, true⟩ wfFile2 0 wfS ∧
    (wfState2 ⟨enc, true⟩ compact).writeFails 0 1 wfS.bs = .ok st1 ∧
    st1.write 0 0 wfS.bs wfS.data = .ok st ∧ Fresh st 2000 ∧ Fresh st 3000 ∧
    st.prepare fileMode 2000 3000 = .ok st3 ∧ Small st3 ∧ st.close 2000 3000 = .ok st4 ∧ Small st4 ∧
    ∀ s, s = st3 ∨ s = st4.reopen 1 compact none (fun _ => false) → ∀ fuel fill qs mem out, (compact = true → qs = [wfQ]) →
      s.reads fuel 0 fill qs mem out → out = .ub := by
  have h : ∀ enc compact, okWith (fun st1 => okWith (fun st => okWith (fun st3 => okWith (fun st4 =>
      decide (Fresh st 2000 ∧ Fresh st 3000 ∧ Small st3 ∧ Small st4 ∧ st3.compact = compact) &&
        (wfCrash st3 && wfCrash (st4.reopen 1 compact none (fun _ => false))))
      (st.close 2000 3000)) (st.prepare fileMode 2000 3000)) (st1.write 0 0 wfS.bs wfS.data))
      ((wfState2 ⟨enc, true⟩ compact).writeFails 0 1 wfS.bs) = true := by decide +kernel
  obtain ⟨st1, h5, h6⟩ := okWith_iff (h enc compact)
  obtain ⟨st, h7, h8⟩ := okWith_iff h6
  obtain ⟨st3, h9, h10⟩ := okWith_iff h8
  obtain ⟨st4, h11, h12⟩ := okWith_iff h10
  rw [Bool.and_eq_true, decide_eq_true_eq] at h12
  obtain ⟨⟨a2, a3, a4, a5, a6⟩, a7⟩ := h12
  have hok : WriteOK ⟨enc, true⟩ { wfS with did := 1 } := by
    obtain ⟨b1, b2, b3, b4, b5, b6, b7, b8⟩ := wfS_ok ⟨enc, true⟩
    exact ⟨b1, b2, b3, by decide, b5, b6, fun _ h => by simp [wfS] at h, b8⟩
  refine ⟨st1, st, st3, st4, wf_reach2 _ _, mayWrite_of hok rfl (p := []) (q := []) rfl rfl (by decide) (by simp),
    mayWrite_of (wfS_ok _) rfl (p := []) (q := []) rfl rfl (by decide) (by simp), h5, h7, a2, a3, h9, a4, h11, a5, ?_⟩
  intro s hs fuel fill qs mem out hq ho
  rw [Bool.and_eq_true] at a7
  rcases hs with rfl | rfl
  · exact wf_crash a7.1 (by rw [a6]; exact hq) ho
  · exact wf_crash a7.2 hq ho

end Verif.Props
