import Verif.Model.Queue
import Verif.Props.Again
import Verif.Props.Repeat

/-
C76: reads with a buffered transfer list.
-/

namespace Verif.Props

open Spec (AW AFile WriteOK Fresh Small Indexable Served ReqsWF Once Repeats ReadResult Viewable Reach Returns)

theorem SameReads.trans {s1 s2 s3 : FState} (h1 : SameReads s1 s2) (h2 : SameReads s2 s3) : SameReads s1 s3 :=
  fun fuel r fill qs mem out => (h2 fuel r fill qs mem out).trans (h1 fuel r fill qs mem out)

theorem search_of_reads {st : FState} {fuel r : Nat} {fill : Nat → Option (List Byte)} {qs : List RReq} {mem m' : Mem}
    (h : st.reads fuel r fill qs mem (.ok m')) : ∃ raw st', st.search fuel r qs = .ok (raw, st') := by
  rcases h with ⟨raw, st', _, h, _⟩ | ⟨_, h⟩ | ⟨_, h⟩
  · exact ⟨raw, st', h⟩
  · simp at h
  · simp at h

/-- All processes read: every outcome is right, and there is one. -/
theorem readAll_right {cfg : Cfg} {a : AFile} {log : List AW} {st0 : FState} (he : a.epoch.flatten = []) (fuel : Nat)
    (fill : Nat → Option (List Byte)) :
    ∀ (qss : List (List RReq)) (ms : List Mem) (r : Nat) (st : FState), ms.length = qss.length → Reach cfg st a →
      SameReads st0 st →
      (∀ i, ∀ hi : i < qss.length, ∀ mem, (∃ mem', st0.reads fuel (r + i) fill qss[i] mem (.ok mem')) ∧
        ∀ out, st0.reads fuel (r + i) fill qss[i] mem out → ∃ mem', out = .ok mem' ∧ ReadResult log fill qss[i] mem mem') →
      (∃ p, ReadAll fuel fill r st qss ms (.ok p)) ∧
      ∀ out, ReadAll fuel fill r st qss ms out → ∃ st' ms', out = .ok (st', ms') ∧ Reach cfg st' a ∧ SameReads st0 st' ∧
        ∃ hl : ms'.length = qss.length, ∃ hm : ms.length = qss.length, ∀ i, ∀ hi : i < qss.length,
          ReadResult log fill qss[i] (ms[i]'(by omega)) (ms'[i]'(by omega)) := by
  intro qss
  induction qss with
  | nil =>
    intro ms r st hl hr hs _
    have : ms = [] := by simpa using hl
    subst this
    refine ⟨⟨_, .nil r st⟩, ?_⟩
    intro out ho
    cases ho
    exact ⟨st, [], rfl, hr, hs, rfl, rfl, fun i hi => absurd hi (by simp)⟩
  | cons qs qss ih =>
    intro ms r st hl hr hs hq
    match ms, hl with
    | m :: ms, hl =>
    simp only [List.length_cons, Nat.add_right_cancel_iff] at hl
    obtain ⟨⟨m0, h0⟩, h1⟩ := hq 0 (by simp) m
    simp only [Nat.add_zero, List.getElem_cons_zero] at h0 h1
    have hq' : ∀ i, ∀ hi : i < qss.length, ∀ mem, (∃ mem', st0.reads fuel (r + 1 + i) fill qss[i] mem (.ok mem')) ∧
        ∀ out, st0.reads fuel (r + 1 + i) fill qss[i] mem out → ∃ mem', out = .ok mem' ∧ ReadResult log fill qss[i] mem mem' := by
      intro i hi mem
      have := hq (i + 1) (by simp; omega) mem
      simp only [List.getElem_cons_succ] at this
      rw [show r + 1 + i = r + (i + 1) by omega]
      exact this
    have step : ∀ raw st', st.search fuel r qs = .ok (raw, st') → Reach cfg st' a ∧ SameReads st0 st' := by
      intro raw st' h
      exact ⟨.search fuel r qs hr he h, hs.trans (C53_again cfg hr h).2⟩
    constructor
    · have hx := (hs fuel r fill qs m _).mpr h0
      obtain ⟨raw, st', h2⟩ := search_of_reads hx
      obtain ⟨h3, h4⟩ := step raw st' h2
      obtain ⟨⟨p, h5⟩, _⟩ := ih ms (r + 1) st' hl h3 h4 hq'
      exact ⟨_, .ok hx h2 h5⟩
    · intro out ho
      cases ho with
      | ok h2 h3 h4 =>
        obtain ⟨h5, h6⟩ := step _ _ h3
        obtain ⟨_, h7⟩ := ih ms (r + 1) _ hl h5 h6 hq'
        obtain ⟨st', ms', rfl, g1, g2, g3, g4, g5⟩ := h7 _ h4
        obtain ⟨m', e, g6⟩ := h1 _ ((hs fuel r fill qs m _).mp h2)
        simp only [Res.ok.injEq] at e
        subst e
        refine ⟨st', _ :: ms', rfl, g1, g2, by simp [g3], by simp [hl], ?_⟩
        intro i hi
        cases i with
        | zero => exact g6
        | succ i => simpa using g5 i (by simpa using hi)
      | err h2 =>
        obtain ⟨m', e, _⟩ := h1 _ ((hs fuel r fill qs m _).mp h2)
        simp at e
      | ub h2 =>
        obtain ⟨m', e, _⟩ := h1 _ ((hs fuel r fill qs m _).mp h2)
        simp at e

theorem fileFlush_dsets {st st1 : FState} {doff : Nat} (h : st.fileFlush doff = .ok st1) : st1.dsets = st.dsets := by
  unfold FState.fileFlush at h
  split at h
  · unfold FState.flush at h
    split at h
    · dsimp only at h
      split at h
      · simp only [Res.ok.injEq] at h
        rw [← h]
      · simp only [Res.ok.injEq] at h
        rw [← h]
    · simp at h
  · simp only [Res.ok.injEq] at h
    rw [h]

/-- The request that a queued read stands for when it is executed: with the dataset as it is then. -/
def Current (dsets : DSets) (q q' : RReq) : Prop :=
  q'.did = q.did ∧ q'.bs = q.bs ∧ q'.xbuf = q.xbuf ∧ dsets[q.did]? = some (some q'.d)

theorem current_now {dsets : DSets} : ∀ {qs qs' : List RReq}, List.Forall₂ (Current dsets) qs qs' → qs' = qs.map (RReq.now dsets) := by
  intro qs qs' h
  induction h with
  | nil => rfl
  | @cons q q' qs qs' h1 _ ih =>
    obtain ⟨e1, e2, e3, e4⟩ := h1
    rw [List.map_cons, ← ih]
    congr 1
    unfold RReq.now
    rw [e4]
    show q' = { q with d := q'.d }
    cases q'
    simp_all

/-- **C76: the queue.** The reads queued by a process are those it has made, in order. -/
theorem C76_queue (ps : List (Nat × RReq)) (s : QState) (r : Nat) :
    (ps.foldl (fun s p => s.read p.1 p.2) s).rq[r]? = (s.rq[r]?).map (· ++ (ps.filter (fun p => p.1 = r)).map (·.2)) := by
  induction ps generalizing s with
  | nil =>
    cases h : s.rq[r]? <;> simp [h]
  | cons p ps ih =>
    rw [List.foldl_cons, ih]
    unfold QState.read
    simp only [List.getElem?_modify]
    by_cases hp : p.1 = r
    · cases h : s.rq[r]? <;> simp [hp]
    · cases h : s.rq[r]? <;> simp [hp]

/-- **C76, partial: requests with a valid view, cells read twice written once.** After any history with any reads queued by any processes, H5Fflush
succeeds; then every queued read has received what all writes before the flush left (those of all processes, queued ones included), no
other memory is changed, and no read is queued any more. -/
theorem C76_flush_partial (cfg : Cfg) {s : QState} {a : AFile} (h : Reach cfg s.st a) (hl : s.rq.length = a.queue.length)
    (hml : s.mem.length = a.queue.length) (hne : s.rq.flatten ≠ [])
    {doff mdoff : Nat} (hf : Fresh s.st doff) (hf' : Fresh s.st mdoff) (hd : doff + Spec.queued a ≤ mdoff)
    (hq : ∀ qs ∈ s.rq, ∃ qs', List.Forall₂ (Current a.dsets) qs qs' ∧ Served cfg s.st.compact a.flush.metaflush qs' ∧
      ReqsWF s.st.compact a.dsets qs' ∧ Viewable qs' ∧ Repeats (a.done ++ a.queue.flatten) qs')
    (hm : s.st.mbuf = none ∨ a.done ++ a.queue.flatten ≠ []) :
    ∃ st1, s.st.prepare true doff mdoff = .ok st1 ∧ (Small st1 → ∃ n, ∀ fuel ≥ n, ∀ fill,
      (∃ s', s.Flush fuel fill doff mdoff (.ok s')) ∧
      ∀ out, s.Flush fuel fill doff mdoff out → ∃ s', out = .ok s' ∧ Reach cfg s'.st a.flush.metaflush ∧ SameReads st1 s'.st ∧
        s'.rq = List.replicate a.queue.length [] ∧ s'.mem.length = a.queue.length ∧
        ∀ (r : Nat) (qs qs' : List RReq) (m m' : Mem), s.rq[r]? = some qs → List.Forall₂ (Current a.dsets) qs qs' →
          s.mem[r]? = some m → s'.mem[r]? = some m' → ReadResult (a.done ++ a.queue.flatten) fill qs' m m') := by
  obtain ⟨g, inv⟩ := reach_inv h
  obtain ⟨st1, h1, _⟩ := inv_prepare inv hf hf' hd (Or.inl rfl : true = true ∨ _)
  refine ⟨st1, h1, fun hsm => ?_⟩
  have hreach := Reach.prepare true doff mdoff h hf hf' hd (Or.inl rfl) h1 hsm
  have hp : a.prepare true = a.flush.metaflush := by simp [AFile.prepare]
  rw [hp] at hreach
  obtain ⟨c1, c2⟩ := prepare_same h1
  have he : (a.flush.metaflush).epoch.flatten = [] := by rw [← hp]; exact prepared_epoch true a
  -- every process
  have each : ∀ r, ∀ hr : r < s.rq.length, Returns st1 r (s.rq[r].map (RReq.now a.dsets)) (a.done ++ a.queue.flatten) := by
    intro r hr
    obtain ⟨qs', w0, hi, w1, w2, w3⟩ := hq _ (List.getElem_mem hr)
    rw [current_now w0] at hi w1 w2 w3
    obtain ⟨st2, e1, e2⟩ := C02_repeated_partial cfg h (coll := true) (Or.inl rfl) hf hf' hd hi w1 w2 w3 (r := r) (by omega) hm
    rw [h1] at e1
    simp only [Res.ok.injEq] at e1
    subst e1
    exact e2 hsm
  have bound : ∃ n, ∀ r, ∀ hr : r < s.rq.length, ∀ fuel ≥ n, ∀ fill mem,
      (∃ mem', st1.reads fuel r fill (s.rq[r].map (RReq.now a.dsets)) mem (.ok mem')) ∧
      ∀ out, st1.reads fuel r fill (s.rq[r].map (RReq.now a.dsets)) mem out → ∃ mem', out = .ok mem' ∧
        ReadResult (a.done ++ a.queue.flatten) fill (s.rq[r].map (RReq.now a.dsets)) mem mem' := by
    choose f hf using each
    let F : Nat → Nat := fun r => if hr : r < s.rq.length then f r hr else 0
    refine ⟨((List.range s.rq.length).map F).sum, fun r hr fuel hfu fill mem => ?_⟩
    refine hf r hr fuel (Nat.le_trans ?_ hfu) fill mem
    have h2 : F r = f r hr := dif_pos hr
    rw [← h2]
    have le : ∀ (l : List Nat) (x : Nat), x ∈ l → x ≤ l.sum := by
      intro l
      induction l with
      | nil => intro x hx; simp at hx
      | cons y l ih =>
        intro x hx
        rw [List.sum_cons]
        rcases List.mem_cons.mp hx with rfl | hx
        · omega
        · have := ih x hx; omega
    exact le _ _ (List.mem_map.mpr ⟨r, List.mem_range.mpr hr, rfl⟩)
  obtain ⟨n, hn⟩ := bound
  refine ⟨n, fun fuel hfu fill => ?_⟩
  -- the flush of the writes
  obtain ⟨stf, hstf, hst1⟩ : ∃ stf, s.st.fileFlush doff = .ok stf ∧ st1 = if stf.metadirty then stf.metaflush mdoff else stf := by
    unfold FState.prepare at h1
    obtain ⟨stf, x1, x2⟩ := Res.bind_ok h1
    simp only [Res.pure_eq, Res.ok.injEq] at x2
    refine ⟨stf, ?_, x2.symm⟩
    unfold FState.fileFlush
    simpa using x1
  have hds : stf.dsets = a.dsets := by rw [fileFlush_dsets hstf, inv.dsets]
  have key := readAll_right (cfg := cfg) (log := a.done ++ a.queue.flatten) (st0 := st1) he fuel fill
    (s.rq.map (·.map (RReq.now a.dsets))) s.mem 0 st1 (by simp; omega) hreach (fun _ _ _ _ _ _ => Iff.rfl) (by
      intro i hi mem
      simp only [Nat.zero_add, List.getElem_map]
      exact hn i (by simpa using hi) fuel hfu fill mem)
  obtain ⟨⟨p, k1⟩, k2⟩ := key
  constructor
  · refine ⟨_, .reads hstf hne (out := .ok p) ?_⟩
    rw [hds, ← hst1]
    exact k1
  · intro out ho
    cases ho with
    | err e => rw [hstf] at e; simp at e
    | ub e => rw [hstf] at e; simp at e
    | idle _ e => exact absurd e hne
    | reads e _ e2 =>
      rw [hstf] at e
      simp only [Res.ok.injEq] at e
      subst e
      rw [hds, ← hst1] at e2
      obtain ⟨st', ms', rfl, g1, g2, g3, g4, g5⟩ := k2 _ e2
      refine ⟨_, rfl, g1, g2, ?_, by simpa [hl] using g3, ?_⟩
      · rw [← hl]
        simp [List.map_const']
      · intro r qs qs' m m' x1 x0 x2 x3
        rw [current_now x0]
        obtain ⟨y1, rfl⟩ := List.getElem?_eq_some_iff.mp x1
        obtain ⟨y2, rfl⟩ := List.getElem?_eq_some_iff.mp x2
        obtain ⟨y3, rfl⟩ := List.getElem?_eq_some_iff.mp x3
        have := g5 r (by simpa using y1)
        simpa using this

/-- **C76: nothing queued.** The flush is that of the writes. -/
theorem C76_idle {s : QState} (h : s.rq.flatten = []) {fuel : Nat} {fill : Nat → Option (List Byte)} {doff mdoff : Nat} {out : Res QState} :
    s.Flush fuel fill doff mdoff out ↔ s.onFile (·.fileFlush doff) = out := by
  have e0 : s.onFile (·.fileFlush doff) = (s.st.fileFlush doff).bind fun st => .ok { s with st := st } := rfl
  rw [e0]
  cases hx : s.st.fileFlush doff with
  | ok st1 =>
    show _ ↔ Res.ok { s with st := st1 } = out
    constructor
    · intro ho
      cases ho with
      | err e => rw [hx] at e; simp at e
      | ub e => rw [hx] at e; simp at e
      | idle e _ =>
        rw [hx] at e
        simp only [Res.ok.injEq] at e
        rw [e]
      | reads _ e _ => exact absurd h e
    · rintro rfl
      exact .idle hx h
  | err =>
    show _ ↔ Res.err = out
    constructor
    · intro ho
      cases ho with
      | err e => rfl
      | ub e => rw [hx] at e; simp at e
      | idle e _ => rw [hx] at e; simp at e
      | reads e _ _ => rw [hx] at e; simp at e
    · rintro rfl
      exact .err hx
  | ub =>
    show _ ↔ Res.ub = out
    constructor
    · intro ho
      cases ho with
      | err e => rw [hx] at e; simp at e
      | ub e => rfl
      | idle e _ => rw [hx] at e; simp at e
      | reads e _ _ => rw [hx] at e; simp at e
    · rintro rfl
      exact .ub hx

/-- **C76 is violated: H5Fclose.** Cell 4 has the value 2. A read of it is queued with success; H5Fclose succeeds, and the buffer, like all memory of
the process, is as it was, whatever that was. -/
theorem C76_close_violated (enc share compact : Bool) (m : Mem) : ∃ st st', Reach ⟨enc, share⟩ st mxFile ∧ st.compact = compact ∧
    (⟨st, [[]], [m]⟩ : QState).read 0 ⟨0, nxD, [⟨[4], [1]⟩], 100⟩ = ⟨st, [[⟨0, nxD, [⟨[4], [1]⟩], 100⟩]], [m]⟩ ∧
    (⟨st, [[⟨0, nxD, [⟨[4], [1]⟩], 100⟩]], [m]⟩ : QState).close 1000 2000 = .ok (st', [m]) ∧
    Spec.expected (mxFile.done ++ mxFile.queue.flatten) (fun _ => none) 0 [4] 0 0 = 2 := by
  have h : ∀ enc share compact, okWith (fun st => okWith (fun _ => decide (st.compact = compact)) (st.close 1000 2000))
      (mxRun ⟨enc, share⟩ compact) = true := by decide +kernel
  obtain ⟨st, h1, h2⟩ := okWith_iff (h enc share compact)
  obtain ⟨st', h3, h4⟩ := okWith_iff h2
  refine ⟨st, st', mx_reach h1, by simpa using h4, rfl, ?_, by decide +kernel⟩
  unfold QState.close
  show (st.close 1000 2000).bind _ = _
  rw [h3]
  rfl

def twQ : List RReq := [⟨0, nxD, [⟨[4], [1]⟩], 100⟩, ⟨0, nxD, [⟨[4], [1]⟩], 101⟩]

/-- **C76 is violated: the same cell twice.** Cell 4 was written twice, first 1, then 2.  Two reads of it are queued; the flush succeeds, and both may
receive the older value. -/
theorem C76_twice_violated (enc share compact : Bool) : ∃ st, Reach ⟨enc, share⟩ st mxFile ∧ st.compact = compact ∧
    Spec.expected (mxFile.done ++ mxFile.queue.flatten) (fun _ => none) 0 [4] 0 0 = 2 ∧ ∀ fuel, ∃ st' m,
    (⟨st, [twQ], [fun _ => 0]⟩ : QState).Flush fuel (fun _ => none) 1000 2000 (.ok ⟨st', [[]], [m]⟩) ∧ m 100 = 1 ∧ m 101 = 1 := by
  have h : ∀ enc share compact, okWith (fun st => decide (st.compact = compact) && okWith (fun stf =>
      decide (stf.dsets = st.dsets ∧ twQ.map (RReq.now st.dsets) = twQ) &&
      decide ((if stf.metadirty then stf.metaflush 2000 else stf).mbuf = none) &&
      okWith (fun raw => decide ((swapLast raw.1).Pairwise (fun a b => hitLt b a = false)) && okWith (fun m => decide (m 100 = 1 ∧ m 101 = 1))
          (readHitsF (if stf.metadirty then stf.metaflush 2000 else stf).disk (swapLast raw.1) (prefill (fun _ => none) twQ (fun _ => 0))))
        ((if stf.metadirty then stf.metaflush 2000 else stf).search 0 0 twQ)) (st.fileFlush 1000)) (mxRun ⟨enc, share⟩ compact) = true := by
    decide +kernel
  obtain ⟨st, h1, h2⟩ := okWith_iff (h enc share compact)
  rw [Bool.and_eq_true, decide_eq_true_eq] at h2
  obtain ⟨stf, h3, h4⟩ := okWith_iff h2.2
  rw [Bool.and_eq_true, Bool.and_eq_true, decide_eq_true_eq, decide_eq_true_eq] at h4
  obtain ⟨⟨⟨a1, a2⟩, a3⟩, a4⟩ := h4
  obtain ⟨⟨raw, st'⟩, s1, s2⟩ := okWith_iff a4
  rw [Bool.and_eq_true, decide_eq_true_eq] at s2
  obtain ⟨m, m1, m2⟩ := okWith_iff s2.2
  refine ⟨st, mx_reach h1, h2.1, by decide +kernel, fun fuel => ⟨st', m, ?_, by simpa using m2⟩⟩
  rw [search_fuel a3 0 fuel] at s1
  have hr := ReadAll.ok (Or.inl ⟨raw, st', _, s1, swapLast_sorted raw s2.1, (readHitsF_eq m1).symm⟩) s1
    (ReadAll.nil (fuel := fuel) (fill := fun _ => none) 1 st')
  have := QState.Flush.reads (s := ⟨st, [twQ], [fun _ => 0]⟩) (mdoff := 2000) h3 (by simp [twQ]) (by
    show ReadAll _ _ _ _ [twQ.map (RReq.now stf.dsets)] _ _
    rw [a1, a2]
    exact hr)
  exact this

/-- The hypotheses of `C76_flush_partial`: both processes have queued a read, one write is flushed and one queued. -/
example (enc share compact : Bool) : ∃ (s : QState) (st1 : FState), Reach ⟨enc, share⟩ s.st fxFile ∧ s.rq = [[fxQ], [fxQ]] ∧
    s.rq.length = fxFile.queue.length ∧ s.mem.length = fxFile.queue.length ∧ fxFile.queue = [[], [fxB]] ∧ Fresh s.st 2000 ∧ Fresh s.st 3000 ∧
    2000 + Spec.queued fxFile ≤ 3000 ∧
    (∀ qs ∈ s.rq, ∃ qs', List.Forall₂ (Current fxFile.dsets) qs qs' ∧ Served ⟨enc, share⟩ s.st.compact fxFile.flush.metaflush qs' ∧ ReqsWF s.st.compact fxFile.dsets qs' ∧ Viewable qs' ∧
      Repeats (fxFile.done ++ fxFile.queue.flatten) qs') ∧
    s.st.mbuf = none ∧ s.st.prepare true 2000 3000 = .ok st1 ∧ Small st1 := by
  obtain ⟨st, st1, h1, h2, h3, h4, h5, h6, h7⟩ := fx_run enc share compact
  refine ⟨⟨st, [[fxQ], [fxQ]], [fun _ => 0, fun _ => 0]⟩, st1, fx_reach h1, rfl, rfl, rfl, rfl, h6, h7, by decide, ?_, h5, h2, h3⟩
  intro qs hqs
  have : qs = [fxQ] := by simpa using hqs
  subst this
  obtain ⟨g1, g2⟩ := fx_request st.compact
  exact ⟨[fxQ], .cons ⟨rfl, rfl, rfl, by decide⟩ .nil, fx_served _ _, g1.wf, g2, g1.repeats _⟩

end Verif.Props
