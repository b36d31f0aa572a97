import Verif.Spec.Bounds
import Verif.Props.Repeat
import Verif.Lemmas.Split

/-
C81: extents.
-/

namespace Verif.Props

open Spec (AW AFile WriteOK MayWrite Fresh Small Indexable Served ReqsWF Repeats Viewable Reach Returns ReadResult XEv xwrites xstep xcell xdims XTame inside fits
  grows shown InBlk lastByte cellByte)

theorem inside_of_fits : ∀ {dims s n c : List Nat}, fits dims s n = true → Spec.inBox s n c = true → inside dims c = true := by
  intro dims
  induction dims with
  | nil =>
    intro s n c h1 h2
    match s, n, h1 with
    | [], [], _ =>
    match c, h2 with
    | [], _ => rfl
  | cons d dims ih =>
    intro s n c h1 h2
    match s, n, h1 with
    | s0 :: s, n0 :: n, h1 =>
    match c, h2 with
    | x :: c, h2 =>
    simp only [fits, Spec.inBox, Bool.and_eq_true, decide_eq_true_eq] at h1 h2
    simp only [inside, Bool.and_eq_true, decide_eq_true_eq]
    exact ⟨by omega, ih h1.2 h2.2⟩

theorem inside_grows : ∀ {dims dims' c : List Nat}, grows dims dims' = true → inside dims c = true → inside dims' c = true := by
  intro dims
  induction dims with
  | nil =>
    intro dims' c h1 h2
    match dims', h1 with
    | [], _ => exact h2
  | cons d dims ih =>
    intro dims' c h1 h2
    match dims', h1 with
    | d' :: dims', h1 =>
    match c, h2 with
    | x :: c, h2 =>
    simp only [grows, inside, Bool.and_eq_true, decide_eq_true_eq] at h1 h2 ⊢
    exact ⟨by omega, ih h1.2 h2.2⟩

theorem cellByte_outside {w : AW} {dims c : List Nat} {k : Nat} (hf : ∀ b ∈ w.bs, fits dims b.start b.count = true) (hc : inside dims c = false) :
    cellByte w c k = none := by
  refine cellByte_none ?_ k
  intro b hb hin
  rw [inside_of_fits (hf b hb) hin] at hc
  simp at hc

/-- The extent in the semantics with extents is that of the events. -/
theorem xfold_dims (did : Nat) (c : List Nat) (k : Nat) : ∀ (evs : List XEv) (s : List Nat × Option Byte),
    (evs.foldl (xstep did c k) s).1 = xdims did s.1 evs := by
  intro evs
  induction evs with
  | nil => intro s; rfl
  | cons e evs ih =>
    intro s
    rw [List.foldl_cons, ih]
    cases e with
    | write w => rfl
    | extent i dims' =>
      simp only [xstep, xdims]
      split <;> rfl

/-- Nothing is outside the extent, whatever has happened. -/
theorem xfold_inside (did : Nat) (c : List Nat) (k : Nat) : ∀ (evs : List XEv) (s : List Nat × Option Byte), (inside s.1 c = false → s.2 = none) →
    inside (evs.foldl (xstep did c k) s).1 c = false → (evs.foldl (xstep did c k) s).2 = none := by
  intro evs
  induction evs with
  | nil => intro s h; exact h
  | cons e evs ih =>
    intro s h
    rw [List.foldl_cons]
    refine ih _ ?_
    cases e with
    | write w =>
      intro hc
      dsimp only [xstep] at hc ⊢
      split
      · rename_i hw
        rw [cellByte_outside (fun b hb => List.all_eq_true.mp hw.2 b hb) hc, h hc]
        rfl
      · exact h hc
    | extent i dims' =>
      dsimp only [xstep]
      split
      · intro hc
        dsimp only at hc ⊢
        rw [if_neg (by rw [hc]; simp)]
      · exact h

/-- Under `XTame`, extents make no difference. -/
theorem xfold_tame (did : Nat) (c : List Nat) (k : Nat) : ∀ (evs : List XEv) (s : List Nat × Option Byte), XTame did s.1 evs →
    (inside s.1 c = false → s.2 = none) →
    (evs.foldl (xstep did c k) s).2 = (lastByte (xwrites evs) did c k).or s.2 := by
  intro evs
  induction evs with
  | nil => intro s _ _; rfl
  | cons e evs ih =>
    intro s ht hs
    rw [List.foldl_cons]
    cases e with
    | write w =>
      obtain ⟨h1, h2⟩ := ht
      have hx : xwrites (.write w :: evs) = [w] ++ xwrites evs := rfl
      rw [hx, lastByte_append, lastByte_single, Option.or_assoc]
      by_cases hd : w.did = did
      · have hall : w.bs.all (fun b => fits s.1 b.start b.count) = true := List.all_eq_true.mpr (h1 hd)
        have e : xstep did c k s (.write w) = (s.1, (cellByte w c k).or s.2) := by
          dsimp only [xstep]
          rw [if_pos ⟨hd, hall⟩]
        rw [e, ih (s.1, (cellByte w c k).or s.2) h2 (by
          intro hc
          dsimp only at hc ⊢
          rw [cellByte_outside (h1 hd) hc, hs hc]
          rfl), if_pos hd]
      · have e : xstep did c k s (.write w) = s := by
          dsimp only [xstep]
          rw [if_neg (fun h => hd h.1)]
        rw [e, ih s h2 hs, if_neg hd]
        rfl
    | extent i dims' =>
      obtain ⟨h1, h2⟩ := ht
      have hx : xwrites (.extent i dims' :: evs) = xwrites evs := rfl
      rw [hx]
      by_cases hd : i = did
      · rw [if_pos hd] at h2
        have e : xstep did c k s (.extent i dims') = (dims', s.2) := by
          dsimp only [xstep]
          rw [if_pos hd]
          cases hc : inside dims' c with
          | true => rfl
          | false =>
            have : inside s.1 c = false := by
              cases hc' : inside s.1 c with
              | false => rfl
              | true => rw [inside_grows (h1 hd) hc'] at hc; simp at hc
            rw [hs this]
            rfl
        rw [e, ih _ h2 (by
          intro hc
          refine hs ?_
          cases hc' : inside s.1 c with
          | false => rfl
          | true =>
            dsimp only at hc
            rw [inside_grows (h1 hd) hc'] at hc
            simp at hc)]
      · rw [if_neg hd] at h2
        have e : xstep did c k s (.extent i dims') = s := by
          dsimp only [xstep]
          rw [if_neg hd]
        rw [e, ih s h2 hs]

/-- **C81, partial: writes inside the extent, extents that do not shrink.** The events are in the order of the log.  A read that all processes make returns what the
datasets hold when extents count; for cells outside the extent that is the fill value, also if H5Dset_extent then adds them (`xcell` of the events and the
new extent).  The rest of memory is not changed.  Missing: the other histories, see `C81_outside_violated`, `C81_shrink_violated` and `C81_alias_violated`. -/
theorem C81_readback_partial (cfg : Cfg) {st : FState} {a : AFile} (h : Reach cfg st a)
    {coll : Bool} (hcoll : Spec.SeesQueue coll a) {doff mdoff : Nat} (hf : Fresh st doff) (hf' : Fresh st mdoff)
    (hd : doff + Spec.queued a ≤ mdoff) {qs : List RReq} (hi : Served cfg st.compact a.flush.metaflush qs)
     (hq : ReqsWF st.compact a.dsets qs) (hv : Viewable qs) (rp : Repeats (a.done ++ a.queue.flatten) qs) {r : Nat}
    (hr : r < a.queue.length) (hm : st.mbuf = none ∨ a.done ++ a.queue.flatten ≠ [])
    (evs : List XEv) (dims0 : Nat → List Nat) (he : xwrites evs = a.done ++ a.queue.flatten)
    (ht : ∀ q ∈ qs, XTame q.did (dims0 q.did) evs) (hx : ∀ q ∈ qs, xdims q.did (dims0 q.did) evs = q.d.dims) :
    ∃ st1, st.prepare coll doff mdoff = .ok st1 ∧ (Small st1 → ∃ n, ∀ fuel ≥ n, ∀ fill mem,
      (∃ mem', st1.reads fuel r fill qs mem (.ok mem')) ∧
      ∀ out, st1.reads fuel r fill qs mem out → ∃ mem', out = .ok mem' ∧
        (∀ q ∈ qs, ∀ i, ∀ hi : i < q.bs.length, ∀ c, InBlk q.bs[i] c → ∀ k, k < q.d.esize →
          mem' (Spec.addrOf q i q.bs[i] c k) =
            shown (xcell (dims0 q.did) evs q.did c k) (fill q.did) k (mem (Spec.addrOf q i q.bs[i] c k)) ∧
          (inside q.d.dims c = false → ∀ dims', xcell (dims0 q.did) (evs ++ [.extent q.did dims']) q.did c k = none ∧
            mem' (Spec.addrOf q i q.bs[i] c k) = shown none (fill q.did) k (mem (Spec.addrOf q i q.bs[i] c k)))) ∧
        (∀ x, (∀ q ∈ qs, ¬ (q.xbuf ≤ x ∧ x < q.xbuf + Spec.bufSize q)) → mem' x = mem x)) := by
  obtain ⟨st1, h1, h2⟩ := C02_repeated_partial cfg h hcoll hf hf' hd hi hq hv rp hr hm
  refine ⟨st1, h1, fun hsm => ?_⟩
  obtain ⟨n, hn⟩ := h2 hsm
  refine ⟨n, fun fuel hfu fill mem => ⟨(hn fuel hfu fill mem).1, fun out ho => ?_⟩⟩
  obtain ⟨mem', e1, e2⟩ := (hn fuel hfu fill mem).2 out ho
  refine ⟨mem', e1, ?_, e2.out⟩
  intro q hqm i hi c hc k hk
  have hcell : lastByte (a.done ++ a.queue.flatten) q.did c k = xcell (dims0 q.did) evs q.did c k := by
    unfold xcell
    rw [xfold_tame q.did c k evs _ (ht q hqm) (fun _ => rfl), he]
    simp
  have hval : mem' (Spec.addrOf q i q.bs[i] c k) =
      shown (xcell (dims0 q.did) evs q.did c k) (fill q.did) k (mem (Spec.addrOf q i q.bs[i] c k)) := by
    rw [e2.val q hqm i hi c hc k hk, ← hcell]
    rfl
  refine ⟨hval, fun hout dims' => ?_⟩
  have hnone : xcell (dims0 q.did) evs q.did c k = none :=
    xfold_inside q.did c k evs _ (fun _ => rfl) (by rw [xfold_dims]; dsimp only; rw [hx q hqm]; exact hout)
  refine ⟨?_, by rw [hval, hnone]⟩
  unfold xcell at hnone ⊢
  rw [List.foldl_append, List.foldl_cons, List.foldl_nil]
  generalize evs.foldl (xstep q.did c k) (dims0 q.did, none) = s at hnone
  unfold xstep
  dsimp only
  rw [if_pos rfl, hnone]
  simp

/-- **C81 is violated: no write is refused for its blocks.** Whatever the file and the extent: a write with a block outside the extent, which must be refused
and leave every cell as it is, succeeds and is put into the log. -/
theorem C81_accepted_violated (cfg : Cfg) {st : FState} {a : AFile} (h : Reach cfg st a) {r : Nat} (hr : r < a.queue.length) {w : AW}
    (hw : MayWrite cfg a r w) {b : Blk} (hb : b ∈ w.bs) (hout : fits w.d.dims b.start b.count = false) :
    (∃ st', st.write r w.did w.bs w.data = .ok st' ∧ Reach cfg st' (a.write r w)) ∧
    ∀ dims0 evs c k, xdims w.did dims0 evs = w.d.dims →
      xcell dims0 (evs ++ [.write w]) w.did c k = xcell dims0 evs w.did c k := by
  obtain ⟨g, inv⟩ := reach_inv h
  obtain ⟨st', g', h1, _⟩ := inv_write inv hw hr
  refine ⟨⟨st', h1, .write r w h hw h1⟩, ?_⟩
  intro dims0 evs c k hx
  have hx' := (xfold_dims w.did c k evs (dims0, none)).trans hx
  unfold xcell
  rw [List.foldl_append, List.foldl_cons, List.foldl_nil]
  generalize evs.foldl (xstep w.did c k) (dims0, none) = s at hx'
  unfold xstep
  dsimp only
  rw [if_neg]
  rintro ⟨_, hall⟩
  have := List.all_eq_true.mp hall b hb
  rw [hx', hout] at this
  simp at this

/-- Four cells, as many as needed. -/
def bxD : DInfo := ⟨[4], [none], 1⟩
/-- A write beyond them. -/
def bxW : AW := ⟨0, bxD, [⟨[6], [1]⟩], [9]⟩
def bxQ (n : Nat) : RReq := ⟨0, ⟨[n], [none], 1⟩, [⟨[6], [1]⟩], 100⟩

theorem bx_ok (cfg : Cfg) (n : Nat) : WriteOK cfg ⟨0, ⟨[n], [none], 1⟩, [⟨[6], [1]⟩], [9]⟩ := by
  refine writeOK_one rfl (by simp) (by simp) (by simp) ⟨by simp, by simp, ?_⟩ (by simp [DInfo.ndim]) rfl (by simp)
  intro b hb
  simp only [List.mem_singleton] at hb
  subst hb
  constructor <;> simp [DInfo.ndim]

/-- **C81 is violated: cells outside the extent.** The dataset has 4 cells.  A write to cell 6 succeeds, a read of cell 6 succeeds and returns what was written; after H5Dset_extent to 8 cells, cell 6, which was never
written inside the extent, still has that value instead of the fill value 0. -/
theorem C81_outside_violated (enc share compact : Bool) : ∃ st st1 st2, Reach ⟨enc, share⟩ st (oneFile bxW) ∧ st.compact = compact ∧
    fits bxD.dims [6] [1] = false ∧ xcell [4] [.write bxW, .extent 0 [8]] 0 [6] 0 = none ∧
    Reach ⟨enc, share⟩ (st.setDims 0 [8]) ((oneFile bxW).setDims 0 [8]) ∧
    st.prepare fileMode 1000 2000 = .ok st1 ∧ (st.setDims 0 [8]).prepare fileMode 1000 2000 = .ok st2 ∧ ∀ fuel,
    (∀ out, st1.reads fuel 0 (fun _ => some [0]) [bxQ 4] (fun _ => 5) out → ∃ m, out = .ok m ∧ m 100 = 9) ∧
    (∀ out, st2.reads fuel 0 (fun _ => some [0]) [bxQ 8] (fun _ => 5) out → ∃ m, out = .ok m ∧ m 100 = 9) := by
  have h : ∀ enc share compact, okWith (fun st => decide (st.compact = compact) &&
      okWith (fun st1 => decide (st1.mbuf = none) && okWith (fun raw => sortedB raw.1 && okWith (fun m => decide (m 100 = 9))
          (readHitsF st1.disk raw.1 (prefill (fun _ => some [0]) [bxQ 4] (fun _ => 5)))) (st1.search 0 0 [bxQ 4]))
        (st.prepare fileMode 1000 2000) &&
      okWith (fun st1 => decide (st1.mbuf = none) && okWith (fun raw => sortedB raw.1 && okWith (fun m => decide (m 100 = 9))
          (readHitsF st1.disk raw.1 (prefill (fun _ => some [0]) [bxQ 8] (fun _ => 5)))) (st1.search 0 0 [bxQ 8]))
        ((st.setDims 0 [8]).prepare fileMode 1000 2000)) (oneRun ⟨enc, share⟩ compact bxW) = true := by decide +kernel
  obtain ⟨st, h1, h2⟩ := okWith_iff (h enc share compact)
  rw [Bool.and_eq_true, Bool.and_eq_true, decide_eq_true_eq] at h2
  obtain ⟨⟨g1, h3⟩, h4⟩ := h2
  obtain ⟨st1, a1, a2⟩ := okWith_iff h3
  obtain ⟨st2, b1, b2⟩ := okWith_iff h4
  rw [Bool.and_eq_true, decide_eq_true_eq] at a2 b2
  have hr := one_reach (bx_ok ⟨enc, share⟩ 4) rfl h1
  refine ⟨st, st1, st2, hr, g1, rfl, by decide, .setDims 0 [8] bxD hr rfl rfl, a1, b1, fun fuel => ⟨?_, ?_⟩⟩
  · intro out ho
    obtain ⟨⟨raw, st'⟩, s1, s2⟩ := okWith_iff a2.2
    rw [Bool.and_eq_true] at s2
    obtain ⟨m, m1, m2⟩ := okWith_iff s2.2
    rw [search_fuel a2.1 0 fuel] at s1
    exact ⟨m, ((reads_unique s1 s2.1).mp ho).trans (readHitsF_eq m1), by simpa using m2⟩
  · intro out ho
    obtain ⟨⟨raw, st'⟩, s1, s2⟩ := okWith_iff b2.2
    rw [Bool.and_eq_true] at s2
    obtain ⟨m, m1, m2⟩ := okWith_iff s2.2
    rw [search_fuel b2.1 0 fuel] at s1
    exact ⟨m, ((reads_unique s1 s2.1).mp ho).trans (readHitsF_eq m1), by simpa using m2⟩

/-- Eight cells, a write to cell 6. -/
def bsW : AW := ⟨0, ⟨[8], [none], 1⟩, [⟨[6], [1]⟩], [9]⟩

/-- **C81 is violated: cells cut off and added again.** Cell 6 of 8 is written; H5Dset_extent to 4 cells and back to 8.  Cell 6 has the old value instead of the fill value 0. -/
theorem C81_shrink_violated (enc share compact : Bool) : ∃ st st1, Reach ⟨enc, share⟩ ((st.setDims 0 [4]).setDims 0 [8]) (((oneFile bsW).setDims 0 [4]).setDims 0 [8]) ∧
    Reach ⟨enc, share⟩ st (oneFile bsW) ∧ st.compact = compact ∧
    xcell [8] [.write bsW] 0 [6] 0 = some 9 ∧ xcell [8] [.write bsW, .extent 0 [4], .extent 0 [8]] 0 [6] 0 = none ∧
    ((st.setDims 0 [4]).setDims 0 [8]).prepare fileMode 1000 2000 = .ok st1 ∧ ∀ fuel out,
      st1.reads fuel 0 (fun _ => some [0]) [bxQ 8] (fun _ => 5) out → ∃ m, out = .ok m ∧ m 100 = 9 := by
  have h : ∀ enc share compact, okWith (fun st => decide (st.compact = compact) &&
      okWith (fun st1 => decide (st1.mbuf = none) && okWith (fun raw => sortedB raw.1 && okWith (fun m => decide (m 100 = 9))
          (readHitsF st1.disk raw.1 (prefill (fun _ => some [0]) [bxQ 8] (fun _ => 5)))) (st1.search 0 0 [bxQ 8]))
        (((st.setDims 0 [4]).setDims 0 [8]).prepare fileMode 1000 2000)) (oneRun ⟨enc, share⟩ compact bsW) = true := by decide +kernel
  obtain ⟨st, h1, h2⟩ := okWith_iff (h enc share compact)
  rw [Bool.and_eq_true, decide_eq_true_eq] at h2
  obtain ⟨g1, h3⟩ := h2
  obtain ⟨st1, a1, a2⟩ := okWith_iff h3
  rw [Bool.and_eq_true, decide_eq_true_eq] at a2
  have hr := one_reach (bx_ok ⟨enc, share⟩ 8) rfl h1
  refine ⟨st, st1, .setDims 0 [8] ⟨[4], [none], 1⟩ (.setDims 0 [4] ⟨[8], [none], 1⟩ hr rfl rfl) rfl rfl, hr, g1, by decide, by decide, a1, fun fuel out ho => ?_⟩
  obtain ⟨⟨raw, st'⟩, s1, s2⟩ := okWith_iff a2.2
  rw [Bool.and_eq_true] at s2
  obtain ⟨m, m1, m2⟩ := okWith_iff s2.2
  rw [search_fuel a2.1 0 fuel] at s1
  exact ⟨m, ((reads_unique s1 s2.1).mp ho).trans (readHitsF_eq m1), by simpa using m2⟩

/-- Four rows of four cells. -/
def byD : DInfo := ⟨[4, 4], [some 4, some 4], 1⟩
def byA : AW := ⟨0, byD, [⟨[1, 1], [1, 1]⟩], [7]⟩
/-- Two cells of row 0, one of them beyond its end. -/
def byB : AW := ⟨0, byD, [⟨[0, 0], [1, 1]⟩, ⟨[0, 5], [1, 1]⟩], [1, 2]⟩
def byQ : RReq := ⟨0, byD, [⟨[1, 1], [1, 1]⟩], 100⟩

/-- **C81 is violated: other cells.** Cell (1, 1) of a 4 x 4 dataset has the value 7.  With selection encoding, a write to cells (0, 0) and (0, 5) succeeds, and
cell (1, 1), which it does not mention, has its value. -/
theorem C81_alias_violated (share compact : Bool) : ∃ st st1 st2, oneRun ⟨true, share⟩ compact byA = .ok st ∧ Reach ⟨true, share⟩ st (oneFile byA) ∧
    xcell [4, 4] [.write byA, .write byB] 0 [1, 1] 0 = some 7 ∧ (∀ b ∈ byB.bs, ¬ InBlk b [1, 1]) ∧
    st.write 0 0 byB.bs byB.data = .ok st1 ∧ st1.prepare fileMode 1000 2000 = .ok st2 ∧ ∀ fuel out,
      st2.reads fuel 0 (fun _ => none) [byQ] (fun _ => 5) out → ∃ m, out = .ok m ∧ m 100 = 2 := by
  have h : ∀ share compact, okWith (fun st => okWith (fun st1 => okWith (fun st2 => decide (st2.mbuf = none) &&
        okWith (fun raw => sortedB raw.1 && okWith (fun m => decide (m 100 = 2))
          (readHitsF st2.disk raw.1 (prefill (fun _ => none) [byQ] (fun _ => 5)))) (st2.search 0 0 [byQ]))
        (st1.prepare fileMode 1000 2000)) (st.write 0 0 byB.bs byB.data)) (oneRun ⟨true, share⟩ compact byA) = true := by decide +kernel
  obtain ⟨st, h1, h2⟩ := okWith_iff (h share compact)
  obtain ⟨st1, a1, a2⟩ := okWith_iff h2
  obtain ⟨st2, b1, b2⟩ := okWith_iff a2
  rw [Bool.and_eq_true, decide_eq_true_eq] at b2
  have ok : WriteOK ⟨true, share⟩ byA := by
    refine writeOK_one rfl (by simp [byA]) (by decide) (by decide) ⟨by simp [byA], by decide, ?_⟩ (by decide) rfl (by decide)
    intro b hb
    simp only [byA, List.mem_singleton] at hb
    subst hb
    constructor <;> decide
  refine ⟨st, st1, st2, h1, one_reach ok rfl h1, by decide, by decide, a1, b1, fun fuel out ho => ?_⟩
  obtain ⟨⟨raw, st'⟩, s1, s2⟩ := okWith_iff b2.2
  rw [Bool.and_eq_true] at s2
  obtain ⟨m, m1, m2⟩ := okWith_iff s2.2
  rw [search_fuel b2.1 0 fuel] at s1
  exact ⟨m, ((reads_unique s1 s2.1).mp ho).trans (readHitsF_eq m1), by simpa using m2⟩

/-! ### Concrete cases -/

/-- The conditions on events of `C81_readback_partial`: a write inside 8 cells, growth to 10, a write to a new cell, growth to 12; cell 11 is then empty. -/
example : XTame 0 [8] [.write bsW, .extent 0 [10], .write ⟨0, ⟨[10], [none], 1⟩, [⟨[9], [1]⟩], [3]⟩, .extent 1 [1], .extent 0 [12]] ∧
    xdims 0 [8] [.write bsW, .extent 0 [10], .write ⟨0, ⟨[10], [none], 1⟩, [⟨[9], [1]⟩], [3]⟩, .extent 1 [1], .extent 0 [12]] = [12] := by
  refine ⟨⟨fun _ b hb => ?_, fun _ => rfl, fun _ b hb => ?_, fun h => by simp at h, fun _ => rfl, trivial⟩, rfl⟩
  · simp only [bsW, List.mem_singleton] at hb
    subst hb
    rfl
  · simp only [List.mem_singleton] at hb
    subst hb
    rfl

/-- The hypotheses of `C81_accepted_violated`. -/
example (cfg : Cfg) (compact : Bool) : Reach cfg ((FState.create cfg compact none 1 (fun _ => 0)).addDset bxD) ((AFile.create 1).addDset bxD) ∧
    MayWrite cfg ((AFile.create 1).addDset bxD) 0 bxW ∧ 0 < ((AFile.create 1).addDset bxD).queue.length ∧ fits bxW.d.dims [6] [1] = false :=
  ⟨.addDset bxD (.create compact none 1 _ (by decide) (by decide)),
    mayWrite_of (bx_ok cfg 4) rfl (p := []) (q := []) rfl rfl (by decide) (by simp), by decide, rfl⟩

/-- All hypotheses of `C81_readback_partial`, in the history of `C76`. -/
example (enc share compact : Bool) : ∃ st st1, Reach ⟨enc, share⟩ st fxFile ∧ st.compact = compact ∧ Fresh st 2000 ∧ Fresh st 3000 ∧
    2000 + Spec.queued fxFile ≤ 3000 ∧ Served ⟨enc, share⟩ st.compact fxFile.flush.metaflush [fxQ] ∧ ReqsWF st.compact fxFile.dsets [fxQ] ∧ Viewable [fxQ] ∧
    Repeats (fxFile.done ++ fxFile.queue.flatten) [fxQ] ∧ 0 < fxFile.queue.length ∧ st.mbuf = none ∧ st.prepare true 2000 3000 = .ok st1 ∧ Small st1 ∧
    xwrites ((fxFile.done ++ fxFile.queue.flatten).map .write) = fxFile.done ++ fxFile.queue.flatten ∧
    XTame fxQ.did [4, 6] ((fxFile.done ++ fxFile.queue.flatten).map .write) ∧
    xdims fxQ.did [4, 6] ((fxFile.done ++ fxFile.queue.flatten).map .write) = fxQ.d.dims := by
  obtain ⟨st, st1, h1, h2, h3, h4, h5, h6, h7⟩ := fx_run enc share compact
  obtain ⟨g1, g2⟩ := fx_request st.compact
  refine ⟨st, st1, fx_reach h1, h4, h6, h7, by decide, fx_served _ _, g1.wf, g2, g1.repeats _, by decide, h5, h2, h3, rfl, ?_, rfl⟩
  have : ∀ w ∈ fxFile.done ++ fxFile.queue.flatten, ∀ b ∈ w.bs, fits [4, 6] b.start b.count = true := by decide
  generalize fxFile.done ++ fxFile.queue.flatten = l at this
  induction l with
  | nil => trivial
  | cons w l ih => exact ⟨fun _ => this w (by simp), ih (fun v hv => this v (by simp [hv]))⟩

end Verif.Props
