import Verif.Props.View

/-
C02 and C16 for requests that ask for the same block several times, and what happens to blocks that cross.
-/

namespace Verif.Props

open Spec (AW AFile WriteOK Fresh Small Indexable Served ReqsWF Once Repeats ReadResult Viewable Reach Returns ReturnsIfOk
  InBlk)

/-- **C02, partial: blocks requested several times.** As `C02_readback_partial`, but blocks of the same dataset
may also be equal, in one request or in several; a cell requested more than once must have been written at most
once (see `C16_equal_violated`). -/
theorem C02_repeated_partial (cfg : Cfg) {st : FState} {a : AFile} (h : Reach cfg st a)
    {coll : Bool} (hcoll : Spec.SeesQueue coll a) {doff mdoff : Nat} (hf : Fresh st doff) (hf' : Fresh st mdoff)
    (hd : doff + Spec.queued a ≤ mdoff)
    {qs : List RReq} (hi : Served cfg st.compact a.flush.metaflush qs)
     (hq : ReqsWF st.compact a.dsets qs) (hv : Viewable qs)
    (rp : Repeats (a.done ++ a.queue.flatten) qs) {r : Nat}
    (hr : r < a.queue.length) (hm : st.mbuf = none ∨ a.done ++ a.queue.flatten ≠ []) :
    ∃ st1, st.prepare coll doff mdoff = .ok st1 ∧
      (Small st1 → Returns st1 r qs (a.done ++ a.queue.flatten)) := by
  obtain ⟨st1, h1, h2⟩ := reach_collective_repeated h hcoll hf hf' hd hi hq hr hm
  exact ⟨st1, h1, fun hsm => (h2 hsm).2.2.1 hv rp⟩

/-- **C02, safety for equal or disjoint blocks** of any shape: if the read succeeds, the result is right. -/
theorem C02_repeated_ifok (cfg : Cfg) {st : FState} {a : AFile} (h : Reach cfg st a)
    {coll : Bool} (hcoll : Spec.SeesQueue coll a) {doff mdoff : Nat} (hf : Fresh st doff) (hf' : Fresh st mdoff)
    (hd : doff + Spec.queued a ≤ mdoff)
    {qs : List RReq} (hi : Served cfg st.compact a.flush.metaflush qs)
     (hq : ReqsWF st.compact a.dsets qs) (rp : Repeats (a.done ++ a.queue.flatten) qs) {r : Nat}
    (hr : r < a.queue.length) (hm : st.mbuf = none ∨ a.done ++ a.queue.flatten ≠ []) :
    ∃ st1, st.prepare coll doff mdoff = .ok st1 ∧
      (Small st1 → ReturnsIfOk st1 r qs (a.done ++ a.queue.flatten)) := by
  obtain ⟨st1, h1, h2⟩ := reach_collective_repeated h hcoll hf hf' hd hi hq hr hm
  exact ⟨st1, h1, fun hsm => (h2 hsm).2.2.2 rp⟩

theorem alone_wf {compact : Bool} {dsets : DSets} {qs : List RReq} (h : ReqsWF compact dsets qs) {q : RReq}
    (hq : q ∈ qs) {i : Nat} (hi : i < q.bs.length) : ReqsWF compact dsets [alone q i q.bs[i]] := by
  have hm : q.bs[i] ∈ q.bs := List.getElem_mem hi
  refine ⟨?_, ?_, ?_, ?_, ?_, List.pairwise_singleton _ _⟩ <;>
    simp only [List.mem_singleton, forall_eq, alone]
  · exact h.dset q hq
  · exact h.es q hq
  · exact h.shape q hq _ hm
  · exact h.cnt q hq _ hm
  · exact fun hc => h.head hc q hq _ hm

theorem alone_once (log : List AW) (q : RReq) (i : Nat) (b : Blk) : Once log [alone q i b] := by
  intro q1 h1 q2 h2 _ j j' hj hj' hne
  rw [List.mem_singleton] at h1 h2
  subst h1 h2
  simp only [alone, List.length_singleton] at hj hj'
  exact absurd (by rw [show j = j' by omega]) hne

theorem alone_repeats (log : List AW) (q : RReq) (i : Nat) (b : Blk) : Repeats log [alone q i b] := by
  refine ⟨?_, alone_once log q i b⟩
  intro q1 h1 q2 h2 _ b1 hb1 b2 hb2
  rw [List.mem_singleton] at h1 h2
  subst h1 h2
  simp only [alone, List.mem_singleton] at hb1 hb2
  exact Or.inl (hb1.trans hb2.symm)

/-- **C16, partial: disjoint or equal blocks.** Blocks of one or several requests read together receive what
each would receive if it were read alone from the same state of the file, as long as a cell requested more than
once was written at most once. -/
theorem C16_repeated_partial (cfg : Cfg) {st : FState} {a : AFile} (h : Reach cfg st a)
    {coll : Bool} (hcoll : Spec.SeesQueue coll a) {doff mdoff : Nat} (hf : Fresh st doff) (hf' : Fresh st mdoff)
    (hd : doff + Spec.queued a ≤ mdoff)
    {qs : List RReq} (hi : Served cfg st.compact a.flush.metaflush qs)
     (hq : ReqsWF st.compact a.dsets qs) (hv : Viewable qs)
    (rp : Repeats (a.done ++ a.queue.flatten) qs) {r : Nat}
    (hr : r < a.queue.length) (hm : st.mbuf = none ∨ a.done ++ a.queue.flatten ≠ []) :
    ∃ st1, st.prepare coll doff mdoff = .ok st1 ∧ (Small st1 →
      ∀ q ∈ qs, ∀ i, ∀ hi : i < q.bs.length, ∃ n, ∀ fuel ≥ n, ∀ fill mem out out',
        st1.reads fuel r fill qs mem out → st1.reads fuel r fill [alone q i q.bs[i]] mem out' →
        ∃ m m', out = .ok m ∧ out' = .ok m' ∧ ∀ c, InBlk q.bs[i] c → ∀ k < q.d.esize,
          m (Spec.addrOf q i q.bs[i] c k) = m' (Spec.addrOf q i q.bs[i] c k)) := by
  obtain ⟨st1, h1, h2⟩ := C02_repeated_partial cfg h hcoll hf hf' hd hi hq hv rp hr hm
  refine ⟨st1, h1, fun hsm q hqm i hi' => ?_⟩
  obtain ⟨n, hn⟩ := h2 hsm
  obtain ⟨st2, g1, g2⟩ := C02_repeated_partial cfg h hcoll hf hf' hd (served_alone hi hqm hi') (alone_wf hq hqm hi')
    (viewable_one _ _ rfl) (alone_repeats _ _ _ _) hr hm
  have : st2 = st1 := by
    have := g1.symm.trans h1
    simpa using this
  subst this
  obtain ⟨n', hn'⟩ := g2 hsm
  refine ⟨max n n', fun fuel hfu fill mem out out' ho ho' => ?_⟩
  obtain ⟨m, e1, e2⟩ := (hn fuel (by omega) fill mem).2 out ho
  obtain ⟨m', e3, e4⟩ := (hn' fuel (by omega) fill mem).2 out' ho'
  refine ⟨m, m', e1, e3, fun c hc k hk => ?_⟩
  rw [e2.val q hqm i hi' c hc k hk]
  have := e4.val (alone q i q.bs[i]) (by simp) 0 (by simp [alone]) c hc k hk
  have ha := alone_addr q i q.bs[i] c k
  simp only [alone, List.getElem_cons_zero] at this ha
  rw [ha] at this
  exact this.symm

/-! Ten bytes written at once; cells `3..4` requested three times, in two requests. -/

def dupQ : List RReq :=
  [⟨0, nxD, [⟨[3], [2]⟩, ⟨[3], [2]⟩, ⟨[6], [4]⟩], 100⟩, ⟨0, nxD, [⟨[3], [2]⟩], 200⟩]

theorem dup_request (compact : Bool) : ReqsWF compact (oneFile nxW).dsets dupQ := by
  refine ⟨?_, ?_, ?_, ?_, ?_, ?_⟩
  · simp [oneFile, nxW, dupQ, AFile.write, AFile.addDset, AFile.create]
  · decide
  · decide
  · decide
  · intro _ q hq b hb n hn
    have : ∀ q ∈ dupQ, ∀ b ∈ q.bs, ∀ n ∈ b.start, n < 2 ^ 31 := by decide
    exact this q hq b hb n (List.mem_of_head? hn)
  · decide

theorem dup_view : Viewable dupQ := by
  refine ⟨?_, ?_, Or.inl (by decide)⟩
  · simp [dupQ, Spec.Alike, Spec.Ends, Spec.EndsLe]
  · simp [dupQ, Spec.Alike, Spec.Ends, Spec.EndsLe]

theorem dup_once : Once ((oneFile nxW).done ++ (oneFile nxW).queue.flatten) dupQ := by
  intro q hq q' hq' hd i i' hi hi' hne c hc hc'
  refine Nat.le_trans (List.countP_le_length) ?_
  have h0 : q.did = 0 := by
    have : ∀ q ∈ dupQ, q.did = 0 := by decide
    exact this q hq
  rw [h0]
  decide

theorem dup_repeats : Repeats ((oneFile nxW).done ++ (oneFile nxW).queue.flatten) dupQ := by
  refine ⟨?_, dup_once⟩
  have hb : ∀ q ∈ dupQ, ∀ b ∈ q.bs, b = ⟨[3], [2]⟩ ∨ b = ⟨[6], [4]⟩ := by decide
  have hn : Spec.NoCommon ⟨[3], [2]⟩ ⟨[6], [4]⟩ := by
    intro x hx
    obtain ⟨h1, h2⟩ := hx
    unfold InBlk at h1 h2
    cases x with
    | nil => simp [Spec.inBox] at h1
    | cons y ys =>
      simp only [Spec.inBox, Bool.and_eq_true, decide_eq_true_eq] at h1 h2
      omega
  intro q hq q' hq' _ b h b' h'
  rcases hb q hq b h with rfl | rfl <;> rcases hb q' hq' b' h' with rfl | rfl
  · exact Or.inl rfl
  · exact Or.inr hn
  · exact Or.inr (fun x hx => hn x ⟨hx.2, hx.1⟩)
  · exact Or.inl rfl

theorem dup_indexable (cfg : Cfg) (compact : Bool) : Indexable cfg compact (oneFile nxW).flush.metaflush :=
  indexable_short (by decide) (by decide)

/-- Hypotheses of `C02_repeated_partial` and `C16_repeated_partial`. -/
example (enc share compact : Bool) : ∃ st st1, Reach ⟨enc, share⟩ st (oneFile nxW) ∧
    (oneFile nxW).queue = [[nxW]] ∧ st.compact = compact ∧ st.mbuf = none ∧ Fresh st 1000 ∧ Fresh st 2000 ∧
    1000 + Spec.queued (oneFile nxW) ≤ 2000 ∧ Served ⟨enc, share⟩ st.compact (oneFile nxW).flush.metaflush dupQ ∧
    ReqsWF st.compact (oneFile nxW).dsets dupQ ∧ Viewable dupQ ∧
    Repeats ((oneFile nxW).done ++ (oneFile nxW).queue.flatten) dupQ ∧
    st.prepare fileMode 1000 2000 = .ok st1 ∧ Small st1 := by
  have h : ∀ enc share compact, okWith (fun st => okWith (fun st1 => decide (Small st1 ∧
      st.compact = compact ∧ st.mbuf = none ∧ Fresh st 1000 ∧ Fresh st 2000))
      (st.prepare fileMode 1000 2000)) (oneRun ⟨enc, share⟩ compact nxW) = true := by decide +kernel
  obtain ⟨st, h1, h2⟩ := okWith_iff (h enc share compact)
  obtain ⟨st1, h3, h4⟩ := okWith_iff h2
  rw [decide_eq_true_eq] at h4
  obtain ⟨a1, a3, a4, a5, a6⟩ := h4
  exact ⟨st, st1, one_reach (nx_ok _) rfl h1, rfl, a3, a4, a5, a6, by decide, (dup_indexable _ _).served (dup_request _), dup_request _,
    dup_view, dup_repeats, h3, a1⟩

/-! ### Crossing blocks -/

/-- Blocks of a one-dimensional dataset always have their ends in order. -/
theorem ends_line {a b : Blk} (h1 : a.start.length = 1) (h2 : a.count.length = 1) (h3 : b.start.length = 1)
    (h4 : b.count.length = 1) : Spec.Ends a b := by
  obtain ⟨s, hs⟩ := List.length_eq_one_iff.mp h1
  obtain ⟨c, hc⟩ := List.length_eq_one_iff.mp h2
  obtain ⟨s', hs'⟩ := List.length_eq_one_iff.mp h3
  obtain ⟨c', hc'⟩ := List.length_eq_one_iff.mp h4
  unfold Spec.Ends
  rw [hs, hc, hs', hc']
  simp only [Spec.EndsLe, and_true]
  exact ⟨by simp, by omega⟩

theorem viewable_line {compact : Bool} {dsets : DSets} {qs : List RReq} (hq : ReqsWF compact dsets qs)
    (h1 : ∀ q ∈ qs, q.d.ndim = 1)
    (h2 : ∀ q ∈ qs, ∀ b ∈ q.bs, ∀ n ∈ b.count.getLast?, n * q.d.esize < 2 ^ 31) : Viewable qs := by
  have len : ∀ q ∈ qs, ∀ b ∈ q.bs, b.start.length = 1 ∧ b.count.length = 1 := by
    intro q hqm b hb
    have := hq.shape q hqm b hb
    rw [h1 q hqm] at this
    exact this
  refine ⟨fun q hqm => ?_, ?_, Or.inl h2⟩
  · rw [List.pairwise_iff_getElem]
    intro i j hi hj _
    have a1 := len q hqm _ (List.getElem_mem hi)
    have a2 := len q hqm _ (List.getElem_mem hj)
    exact Or.inl (ends_line a1.1 a1.2 a2.1 a2.2)
  · rw [List.pairwise_iff_getElem]
    intro i j hi hj _ _ b hb b' hb'
    have a1 := len _ (List.getElem_mem hi) b hb
    have a2 := len _ (List.getElem_mem hj) b' hb'
    exact Or.inl (ends_line a1.1 a1.2 a2.1 a2.2)

/-- **C44, partial: one dimension.** For one-dimensional datasets the file view is valid whatever blocks are
requested, also if they cross, repeat or contain one another, as long as each is shorter than 2 GiB. -/
theorem C44_line_partial (cfg : Cfg) {st : FState} {a : AFile} (h : Reach cfg st a)
    {coll : Bool} (hcoll : Spec.SeesQueue coll a) {doff mdoff : Nat} (hf : Fresh st doff) (hf' : Fresh st mdoff)
    (hd : doff + Spec.queued a ≤ mdoff)
    {qs : List RReq} (hi : Served cfg st.compact a.flush.metaflush qs)
     (hq : ReqsWF st.compact a.dsets qs) (hn : ∀ q ∈ qs, q.d.ndim = 1)
    (hl : ∀ q ∈ qs, ∀ b ∈ q.bs, ∀ n ∈ b.count.getLast?, n * q.d.esize < 2 ^ 31) {r : Nat}
    (hr : r < a.queue.length) (hm : st.mbuf = none ∨ a.done ++ a.queue.flatten ≠ []) :
    ∃ st1, st.prepare coll doff mdoff = .ok st1 ∧ (Small st1 → ∃ n, ∀ fuel ≥ n,
      (∃ ds, Spec.Displacements st1 fuel r qs ds) ∧
      ∀ ds, Spec.Displacements st1 fuel r qs ds → ds.Pairwise (· ≤ ·) ∧ ∀ x ∈ ds, 0 ≤ x) :=
  C44_view_partial cfg h hcoll hf hf' hd hi hq (viewable_line hq hn hl) hr hm

/-- Blocks that cross and contain one another. -/
def lineQ : RReq := ⟨0, nxD, [⟨[0], [8]⟩, ⟨[5], [2]⟩, ⟨[3], [7]⟩, ⟨[5], [2]⟩], 100⟩

theorem line_request (compact : Bool) : ReqsWF compact (oneFile nxW).dsets [lineQ] := by
  refine ⟨?_, ?_, ?_, ?_, ?_, ?_⟩
  · simp [oneFile, nxW, lineQ, AFile.write, AFile.addDset, AFile.create]
  · decide
  · decide
  · decide
  · intro _ q hq b hb n hn
    have : ∀ q ∈ [lineQ], ∀ b ∈ q.bs, ∀ n ∈ b.start, n < 2 ^ 31 := by decide
    exact this q hq b hb n (List.mem_of_head? hn)
  · decide

/-- Hypotheses of `C44_line_partial`. -/
example (enc share compact : Bool) : ∃ st st1, Reach ⟨enc, share⟩ st (oneFile nxW) ∧
    (oneFile nxW).queue = [[nxW]] ∧ st.compact = compact ∧ st.mbuf = none ∧ Fresh st 1000 ∧ Fresh st 2000 ∧
    1000 + Spec.queued (oneFile nxW) ≤ 2000 ∧ Served ⟨enc, share⟩ st.compact (oneFile nxW).flush.metaflush [lineQ] ∧
    ReqsWF st.compact (oneFile nxW).dsets [lineQ] ∧ (∀ q ∈ [lineQ], q.d.ndim = 1) ∧
    (∀ q ∈ [lineQ], ∀ b ∈ q.bs, ∀ n ∈ b.count.getLast?, n * q.d.esize < 2 ^ 31) ∧
    st.prepare fileMode 1000 2000 = .ok st1 ∧ Small st1 := by
  have h : ∀ enc share compact, okWith (fun st => okWith (fun st1 => decide (Small st1 ∧
      st.compact = compact ∧ st.mbuf = none ∧ Fresh st 1000 ∧ Fresh st 2000))
      (st.prepare fileMode 1000 2000)) (oneRun ⟨enc, share⟩ compact nxW) = true := by decide +kernel
  obtain ⟨st, h1, h2⟩ := okWith_iff (h enc share compact)
  obtain ⟨st1, h3, h4⟩ := okWith_iff h2
  rw [decide_eq_true_eq] at h4
  obtain ⟨a1, a3, a4, a5, a6⟩ := h4
  exact ⟨st, st1, one_reach (nx_ok _) rfl h1, rfl, a3, a4, a5, a6, by decide, (dup_indexable _ _).served (line_request _), line_request _,
    by decide, by decide, h3, a1⟩

/-- Cells `4..9` of ten, written at once. -/
def crW : AW := ⟨0, nxD, [⟨[4], [6]⟩], [4, 5, 6, 7, 8, 9]⟩
/-- The blocks `3..9` and `0..5`. -/
def crQ : RReq := ⟨0, nxD, [⟨[3], [7]⟩, ⟨[0], [6]⟩], 100⟩

theorem cr_ok (cfg : Cfg) : WriteOK cfg crW := by
  refine writeOK_one rfl (by decide) (by decide) (by decide) ⟨by decide, by decide, ?_⟩ (by decide) rfl
    (by decide)
  intro b hb
  simp [crW] at hb
  subst hb
  constructor <;> decide

/-- **C16 is violated: crossing blocks and a single write.** Neither block contains the other one. The parts of
the write in the two blocks begin at the same place, so `std::sort` may leave the longer one first; the cells
`4..5` of the second block then receive the bytes `8, 9`. -/
theorem C16_crossing_violated (enc share compact : Bool) :
    ∃ st st1, Reach ⟨enc, share⟩ st (oneFile crW) ∧ (oneFile crW).queue = [[crW]] ∧ st.compact = compact ∧
      st.mbuf = none ∧ Fresh st 1000 ∧ Fresh st 2000 ∧ st.prepare fileMode 1000 2000 = .ok st1 ∧ Small st1 ∧
      ∀ fuel,
      (∃ m, st1.reads fuel 0 (fun _ => none) [crQ] (fun _ => 0) (.ok m) ∧
        m (Spec.addrOf crQ 1 ⟨[0], [6]⟩ [4] 0) = 8 ∧ m (Spec.addrOf crQ 1 ⟨[0], [6]⟩ [5] 0) = 9) ∧
      (∀ out, st1.reads fuel 0 (fun _ => none) [alone crQ 1 ⟨[0], [6]⟩] (fun _ => 0) out →
        ∃ m, out = .ok m ∧ m (Spec.addrOf crQ 1 ⟨[0], [6]⟩ [4] 0) = 4 ∧
          m (Spec.addrOf crQ 1 ⟨[0], [6]⟩ [5] 0) = 5) := by
  have h : ∀ enc share compact, okWith (fun st => okWith (fun st1 => decide (Small st1 ∧ st1.mbuf = none ∧
      st.compact = compact ∧ st.mbuf = none ∧ Fresh st 1000 ∧ Fresh st 2000) &&
      (okWith (fun raw => decide ((stableSort raw.1).Pairwise (fun a b => hitLt b a = false)) && okWith (fun m =>
        decide (m (Spec.addrOf crQ 1 ⟨[0], [6]⟩ [4] 0) = 8 ∧ m (Spec.addrOf crQ 1 ⟨[0], [6]⟩ [5] 0) = 9))
          (readHitsF st1.disk (stableSort raw.1) (prefill (fun _ => none) [crQ] (fun _ => 0))))
          (st1.search 0 0 [crQ]) &&
       okWith (fun raw => sortedB raw.1 && okWith (fun m =>
        decide (m (Spec.addrOf crQ 1 ⟨[0], [6]⟩ [4] 0) = 4 ∧ m (Spec.addrOf crQ 1 ⟨[0], [6]⟩ [5] 0) = 5))
          (readHitsF st1.disk raw.1 (prefill (fun _ => none) [alone crQ 1 ⟨[0], [6]⟩] (fun _ => 0))))
          (st1.search 0 0 [alone crQ 1 ⟨[0], [6]⟩])))
      (st.prepare fileMode 1000 2000)) (oneRun ⟨enc, share⟩ compact crW) = true := by decide +kernel
  obtain ⟨st, h1, h2⟩ := okWith_iff (h enc share compact)
  obtain ⟨st1, h3, h4⟩ := okWith_iff h2
  rw [Bool.and_eq_true, decide_eq_true_eq] at h4
  obtain ⟨⟨a1, a2, a3, a4, a5, a6⟩, a7⟩ := h4
  rw [Bool.and_eq_true] at a7
  obtain ⟨b1, b2⟩ := a7
  refine ⟨st, st1, one_reach (cr_ok _) rfl h1, rfl, a3, a4, a5, a6, h3, a1, fun fuel => ⟨?_, ?_⟩⟩
  · obtain ⟨⟨raw, st'⟩, s1, s2⟩ := okWith_iff b1
    rw [Bool.and_eq_true, decide_eq_true_eq] at s2
    obtain ⟨m, m1, m2⟩ := okWith_iff s2.2
    rw [search_fuel a2 0 fuel] at s1
    exact ⟨m, Or.inl ⟨raw, st', _, s1, stableSort_sorted raw s2.1, (readHitsF_eq m1).symm⟩, by simpa using m2⟩
  · intro out ho
    obtain ⟨⟨raw, st'⟩, s1, s2⟩ := okWith_iff b2
    rw [Bool.and_eq_true] at s2
    obtain ⟨m, m1, m2⟩ := okWith_iff s2.2
    rw [search_fuel a2 0 fuel] at s1
    exact ⟨m, ((reads_unique s1 s2.1).mp ho).trans (readHitsF_eq m1), by simpa using m2⟩

/-! ### The same block twice, written twice -/

def eqQ : RReq := ⟨0, nxD, [⟨[4], [1]⟩, ⟨[4], [1]⟩], 100⟩

/-- Another sorted order of the search results. -/
def swapLast (l : List Hit) : List Hit := match (stableSort l).reverse with
  | a :: b :: t => (b :: a :: t).reverse
  | t => t.reverse

theorem swapLast_sorted (raw : List Hit) (h : (swapLast raw).Pairwise (fun a b => hitLt b a = false)) :
    SortedHits raw (swapLast raw) := by
  refine ⟨?_, h⟩
  have h1 : (stableSort raw).reverse.Perm raw := (List.reverse_perm _).trans (List.perm_insertionSort _ _)
  unfold swapLast
  split
  · rename_i a b t he
    rw [he] at h1
    exact (List.reverse_perm _).trans ((List.Perm.swap _ _ _).trans h1)
  · exact (List.reverse_perm _).trans h1

/-- **C16 is violated: the same block twice.** Cell 4 was written twice (`mxA`: value 1, `mxB`: value 2). The
two requests for it are equal elements for `std::sort`, and for an order that it may choose, the result of the
newest write is lost in both places. (The conditions of `C16_repeated_partial` except `Once` hold.) -/
theorem C16_equal_violated (enc share compact : Bool) :
    ∃ st st1, Reach ⟨enc, share⟩ st mxFile ∧ mxFile.queue = [[mxA, mxB]] ∧ st.compact = compact ∧
      st.mbuf = none ∧ Fresh st 1000 ∧ Fresh st 2000 ∧ st.prepare fileMode 1000 2000 = .ok st1 ∧ Small st1 ∧
      Viewable [eqQ] ∧
      ∀ fuel,
      (∃ m, st1.reads fuel 0 (fun _ => none) [eqQ] (fun _ => 0) (.ok m) ∧ m 100 = 1 ∧ m 101 = 1) ∧
      (∀ out, st1.reads fuel 0 (fun _ => none) [alone eqQ 0 ⟨[4], [1]⟩] (fun _ => 0) out →
        ∃ m, out = .ok m ∧ m 100 = 2) := by
  have h : ∀ enc share compact, okWith (fun st => okWith (fun st1 => decide (Small st1 ∧ st1.mbuf = none ∧
      st.compact = compact ∧ st.mbuf = none ∧ Fresh st 1000 ∧ Fresh st 2000) &&
      (okWith (fun raw => decide ((swapLast raw.1).Pairwise (fun a b => hitLt b a = false)) && okWith (fun m =>
        decide (m 100 = 1 ∧ m 101 = 1))
          (readHitsF st1.disk (swapLast raw.1) (prefill (fun _ => none) [eqQ] (fun _ => 0))))
          (st1.search 0 0 [eqQ]) &&
       okWith (fun raw => sortedB raw.1 && okWith (fun m => decide (m 100 = 2))
          (readHitsF st1.disk raw.1 (prefill (fun _ => none) [alone eqQ 0 ⟨[4], [1]⟩] (fun _ => 0))))
          (st1.search 0 0 [alone eqQ 0 ⟨[4], [1]⟩])))
      (st.prepare fileMode 1000 2000)) (mxRun ⟨enc, share⟩ compact) = true := by decide +kernel
  obtain ⟨st, h1, h2⟩ := okWith_iff (h enc share compact)
  obtain ⟨st1, h3, h4⟩ := okWith_iff h2
  rw [Bool.and_eq_true, decide_eq_true_eq] at h4
  obtain ⟨⟨a1, a2, a3, a4, a5, a6⟩, a7⟩ := h4
  rw [Bool.and_eq_true] at a7
  obtain ⟨b1, b2⟩ := a7
  refine ⟨st, st1, mx_reach h1, rfl, a3, a4, a5, a6, h3, a1, ?_, fun fuel => ⟨?_, ?_⟩⟩
  · refine ⟨?_, List.pairwise_singleton _ _, Or.inl (by decide)⟩
    simp [eqQ, Spec.Alike, Spec.Ends, Spec.EndsLe]
  · obtain ⟨⟨raw, st'⟩, s1, s2⟩ := okWith_iff b1
    rw [Bool.and_eq_true, decide_eq_true_eq] at s2
    obtain ⟨m, m1, m2⟩ := okWith_iff s2.2
    rw [search_fuel a2 0 fuel] at s1
    exact ⟨m, Or.inl ⟨raw, st', _, s1, swapLast_sorted raw s2.1, (readHitsF_eq m1).symm⟩, by simpa using m2⟩
  · intro out ho
    obtain ⟨⟨raw, st'⟩, s1, s2⟩ := okWith_iff b2
    rw [Bool.and_eq_true] at s2
    obtain ⟨m, m1, m2⟩ := okWith_iff s2.2
    rw [search_fuel a2 0 fuel] at s1
    exact ⟨m, ((reads_unique s1 s2.1).mp ho).trans (readHitsF_eq m1), by simpa using m2⟩

end Verif.Props
