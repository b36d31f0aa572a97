import Verif.Lemmas.ReplayFile
import Verif.Lemmas.Script
import Verif.Props.FileEx
import Verif.Props.Filter

/-
C51: h5lreplay reproduces the data.
-/

namespace Verif.Props

open _root_.Verif.Spec (AW AFile WriteOK Fresh Small Reach lastByte Covers NoRace FitsNow Reproduced sectionsOf)

theorem MdOK.sections {disk : Mem} {e : Ext} {secs : List (List (AW × WReq))} (h : MdOK disk e secs)
    (hs : e.size < 2 ^ 31) : sectionsOf disk e = secs.length := by
  obtain ⟨h1, h2⟩ := h.secOn.nsec (by omega)
  rw [List.length_map] at h1 h2
  unfold Ext.read at h1
  split at h1
  · simp only [Res.ok.injEq, Nat.add_zero] at h1
    unfold sectionsOf
    rw [h1, h2]
  · simp at h1

/-- The state of a closed file. -/
theorem closed_inv {cfg : Cfg} {st : FState} {a : AFile} (h : Reach cfg st a) {doff mdoff : Nat} (hf : Fresh st doff)
    (hf' : Fresh st mdoff) (hd : doff + Spec.queued a ≤ mdoff) :
    ∃ stc, st.close doff mdoff = .ok stc ∧ stc.saved = stc.mds.length ∧
      (Small stc → ∃ g, Inv cfg g stc a.flush.metaflush) := by
  obtain ⟨g, inv⟩ := reach_inv h
  obtain ⟨st2, h1, h2⟩ := inv_close inv hf hf' hd
  refine ⟨_, h1, rfl, fun hs => ?_⟩
  obtain ⟨g', i⟩ := h2 hs
  exact ⟨g', { i with
    dsets := i.dsets
    small := i.small
    idxl := i.idxl }⟩

theorem inv_replayable {cfg : Cfg} {g : Ghost} {st : FState} {a : AFile} (h : Inv cfg g st a) {np : Nat}
    (h1 : st.saved = st.mds.length) (h2 : ∀ e ∈ st.mds, e.size < 2 ^ 31)
    (h3 : ∀ e ∈ st.mds, np ≤ sectionsOf st.disk e ∨ np = 1) (h4 : ∀ w ∈ a.done, FitsNow a.dsets w) :
    Replayable g st np := by
  refine ⟨h1, h2, ?_, ?_⟩
  · intro secs hs
    obtain ⟨i, hi, rfl⟩ := List.getElem_of_mem hs
    have hl := h.md.length_eq
    have hmd := (List.forall₂_iff_get.mp h.md).2 i (by omega) hi
    simp only [List.get_eq_getElem] at hmd
    have hm : st.mds[i]'(by omega) ∈ st.mds := List.getElem_mem _
    rcases h3 _ hm with h5 | h5
    · rwa [MdOK.sections hmd (h2 _ hm)] at h5
    · have := hmd.pos; omega
  · intro x hx
    rw [h.dsets]
    refine h4 _ ?_
    rw [← h.done]
    have := h.perm.mem_iff.mpr (List.mem_map_of_mem (f := loc) (List.mem_append_left _ hx))
    exact List.mem_map.mpr ⟨_, this, rfl⟩

theorem flush_epoch (a : AFile) : a.flush.metaflush.epoch.flatten = [] := by
  rw [List.flatten_eq_nil_iff]
  intro l hl
  simp only [AFile.metaflush] at hl
  obtain ⟨_, _, rfl⟩ := List.mem_map.mp hl
  rfl

/-- **C51, partial: one process.** After any history, with any combination of metadata sharing and selection encoding:
replaying the closed file with one process succeeds, and every byte of every element is the one of the last write covering it
**in the order of the metadata** (by epoch, then by writing process). Conditions: all written datasets are still
present, with extents that contain the blocks written; less than 2 GiB of metadata per metadata dataset. See `C51_order_violated`
for what the order of the metadata means. -/
theorem C51_single_partial (cfg : Cfg) {st : FState} {a : AFile} (h : Reach cfg st a) {doff mdoff : Nat}
    (hf : Fresh st doff) (hf' : Fresh st mdoff) (hd : doff + Spec.queued a ≤ mdoff)
    (hfit : ∀ w ∈ a.done ++ a.queue.flatten, FitsNow a.dsets w) :
    ∃ stc, st.close doff mdoff = .ok stc ∧ (Small stc → (∀ e ∈ stc.mds, e.size < 2 ^ 31) →
      (∃ out, stc.replay 1 out) ∧ ∀ out, stc.replay 1 out → ∃ c, out = .ok c ∧
        Reproduced a.dsets (a.flush.metaflush.secs.flatten) c) := by
  obtain ⟨stc, h1, h2, h3⟩ := closed_inv h hf hf' hd
  refine ⟨stc, h1, fun hs hsz => ?_⟩
  obtain ⟨g, inv⟩ := h3 hs
  have hp := inv_replayable (np := 1) inv h2 hsz (fun _ _ => .inr rfl) hfit
  obtain ⟨o1, o2⟩ := inv.replay_out hp
  refine ⟨o1, fun out ho => ?_⟩
  obtain ⟨l, l1, l2⟩ := o2 out ho
  refine ⟨_, l2, ?_⟩
  intro did d hdd x k hk
  have hdd' : stc.dsets[did]? = some (some d) := by rw [inv.dsets]; exact hdd
  rw [inv.replay_val l1 hdd' x hk, inv.replay_one l1 hdd' x hk]

/-- **C51, partial: any number of processes, no races.** If writes of different processes, and writes in different epochs, have
no common cell, replaying the closed file with at most as many processes as there are sections succeeds, however the
processes are scheduled, and the output has for every byte of every element the one of the last write covering it. -/
theorem C51_replay_partial (cfg : Cfg) {st : FState} {a : AFile} (h : Reach cfg st a) {doff mdoff : Nat}
    (hf : Fresh st doff) (hf' : Fresh st mdoff) (hd : doff + Spec.queued a ≤ mdoff)
    (hfit : ∀ w ∈ a.done ++ a.queue.flatten, FitsNow a.dsets w) (hr : NoRace a.flush.metaflush.secs) :
    ∃ stc, st.close doff mdoff = .ok stc ∧ (Small stc → (∀ e ∈ stc.mds, e.size < 2 ^ 31) → ∀ np, 0 < np →
      (∀ e ∈ stc.mds, np ≤ sectionsOf stc.disk e) →
      (∃ out, stc.replay np out) ∧ ∀ out, stc.replay np out → ∃ c, out = .ok c ∧
        Reproduced a.dsets (a.done ++ a.queue.flatten) c) := by
  obtain ⟨stc, h1, h2, h3⟩ := closed_inv h hf hf' hd
  refine ⟨stc, h1, fun hs hsz np hnp hn => ?_⟩
  obtain ⟨g, inv⟩ := h3 hs
  have hp := inv_replayable (np := np) inv h2 hsz (fun e he => .inl (hn e he)) hfit
  obtain ⟨o1, o2⟩ := inv.replay_out hp
  refine ⟨o1, fun out ho => ?_⟩
  obtain ⟨l, l1, l2⟩ := o2 out ho
  refine ⟨_, l2, ?_⟩
  intro did d hdd x k hk
  have hdd' : stc.dsets[did]? = some (some d) := by rw [inv.dsets]; exact hdd
  rw [inv.replay_val l1 hdd' x hk, inv.replay_many hnp hr l1 hdd' x hk]
  refine inv.secs_done (flush_epoch a) hr ?_ did x k
  intro s hs
  exact sub_metaflush (sub_flush (reach_sub h)) s (by simp [hs])

/-! ### Cases -/

def ryD : DInfo := ⟨[4], [some 4], 1⟩
def ryW (i : Nat) (v : Byte) : AW := ⟨0, ryD, [⟨[i], [1]⟩], [v]⟩

/-- All metadata datasets are below 2 GiB and have at least `np` sections. -/
def mdsB (st : FState) (np : Nat) : Bool :=
  st.mds.all (fun e => decide (e.size < 2 ^ 31) && decide (np ≤ sectionsOf st.disk e))

theorem mdsB_iff {st : FState} {np : Nat} (h : mdsB st np = true) :
    (∀ e ∈ st.mds, e.size < 2 ^ 31) ∧ ∀ e ∈ st.mds, np ≤ sectionsOf st.disk e := by
  unfold mdsB at h
  simp only [List.all_eq_true, Bool.and_eq_true, decide_eq_true_eq] at h
  exact ⟨fun e he => (h e he).1, fun e he => (h e he).2⟩

theorem ry_fits {dsets : DSets} (hd : dsets[0]? = some (some ryD)) {i : Nat} (hi : i < 4) (v : Byte) :
    FitsNow dsets (ryW i v) := by
  refine ⟨ryD, hd, ?_⟩
  intro b hb
  simp only [ryW, List.mem_singleton] at hb
  subst hb
  refine ⟨?_, ?_⟩
  · simp [Spec.inExtent_cons, Spec.inExtent_nil, ryD]; omega
  · unfold Spec.NonEmpty; simp

/-- Two processes write disjoint cells in two epochs, each overwrites one of its own cells. -/
def ryOps : List Op :=
  [.dset ryD, .write 0 (ryW 0 1), .write 1 (ryW 2 2), .write 0 (ryW 0 3), .flush 1000, .write 1 (ryW 2 4), .prepare 2000 3000,
    .write 0 (ryW 1 5)]

theorem ry_noRace {ps : List (List (Nat × Byte))} (h : ps.Pairwise (fun p q => ∀ w ∈ p, ∀ w' ∈ q, w.1 ≠ w'.1)) :
    NoRace (ps.map (fun p => p.map (fun w => ryW w.1 w.2))) := by
  have key : ∀ {i v i' v' did x}, i ≠ i' → ¬ (Covers did x (ryW i v) ∧ Covers did x (ryW i' v')) := by
    rintro i v i' v' did x hi ⟨⟨_, b, hb, c⟩, ⟨_, b', hb', c'⟩⟩
    simp only [ryW, List.mem_singleton] at hb hb'
    subst hb hb'
    rcases x with _ | ⟨y, _ | ⟨z, x⟩⟩
    · simp [Spec.InBlk, Spec.inBox] at c
    · simp [Spec.InBlk, Spec.inBox] at c c'
      omega
    · simp [Spec.InBlk, Spec.inBox] at c
  unfold NoRace
  rw [List.pairwise_map]
  refine h.imp ?_
  intro p q hpq w hw w' hw' did x
  obtain ⟨y, y1, rfl⟩ := List.mem_map.mp hw
  obtain ⟨y', y1', rfl⟩ := List.mem_map.mp hw'
  exact key (hpq y y1 y' y1')

/-- The hypotheses of `C51_replay_partial` are met by a history with two epochs, replayed by two processes. -/
example (enc share compact : Bool) : ∃ st a stc, Reach ⟨enc, share⟩ st a ∧ a.done.length = 4 ∧ a.queue.flatten.length = 1 ∧
    st.close 5000 6000 = .ok stc ∧ stc.mds.length = 2 ∧ ∀ out, stc.replay 2 out → ∃ c, out = .ok c ∧
      c 0 [0] 0 = some 3 ∧ c 0 [1] 0 = some 5 ∧ c 0 [2] 0 = some 4 ∧ c 0 [3] 0 = none := by
  have h : ∀ enc share compact, okWith (fun s => okWith (fun stc => freshB s.1 5000 && freshB s.1 6000 && smallB stc &&
      mdsB stc 2 && decide (stc.mds.length = 2) && decide (s.2.dsets = [some ryD] ∧
        s.2.done = [ryW 0 1, ryW 0 3, ryW 2 2, ryW 2 4] ∧ s.2.queue = [[ryW 1 5], []] ∧
        s.2.flush.metaflush.secs = [[(0, 1), (0, 3)], [(2, 2), (2, 4)], [(1, 5)], []].map (fun p => p.map (fun w => ryW w.1 w.2))))
      (s.1.close 5000 6000)) (script ⟨enc, share⟩ compact 2 ryOps) = true := by decide +kernel
  obtain ⟨⟨st, a⟩, h1, h2⟩ := okWith_iff (h enc share compact)
  obtain ⟨stc, h3, h4⟩ := okWith_iff h2
  simp only [Bool.and_eq_true, decide_eq_true_eq] at h4
  obtain ⟨⟨⟨⟨⟨a1, a2⟩, a3⟩, a4⟩, a4'⟩, a5, a6, a7, a8⟩ := h4
  have hr := script_reach (by decide) (by decide) h1
  have hq : Spec.queued a = 1 := by unfold Spec.queued; rw [a7]; rfl
  have hl : a.done ++ a.queue.flatten = [ryW 0 1, ryW 0 3, ryW 2 2, ryW 2 4, ryW 1 5] := by rw [a6, a7]; rfl
  have hfit : ∀ w ∈ a.done ++ a.queue.flatten, FitsNow a.dsets w := by
    intro w hw
    rw [hl] at hw
    simp only [List.mem_cons, List.not_mem_nil, or_false] at hw
    rcases hw with rfl | rfl | rfl | rfl | rfl <;> exact ry_fits (by rw [a5]; rfl) (by decide) _
  refine ⟨st, a, stc, hr, by rw [a6]; rfl, by rw [a7]; rfl, h3, a4', ?_⟩
  obtain ⟨stc', e1, e2⟩ := C51_replay_partial _ hr (freshB_iff.mp a1) (freshB_iff.mp a2) (by rw [hq]; decide) hfit (by
    rw [a8]; exact ry_noRace (by decide))
  have e3 : stc' = stc := by
    have := e1.symm.trans h3
    simpa using this
  rw [e3] at e2
  intro out ho
  obtain ⟨c, c1, c2⟩ := (e2 (smallB_iff.mp a3) (mdsB_iff a4).1 2 (by decide) (mdsB_iff a4).2).2 out ho
  refine ⟨c, c1, ?_⟩
  have hc := c2 0 ryD (by rw [a5]; rfl)
  rw [hl] at hc
  rw [hc _ 0 (by decide), hc _ 0 (by decide), hc _ 0 (by decide), hc _ 0 (by decide)]
  decide +kernel

/-- Process 1 writes a cell, all processes flush, process 0 overwrites the cell. -/
def roOps : List Op := [.dset ryD, .write 1 (ryW 0 1), .flush 1000, .write 0 (ryW 0 2), .flush 2000]

/-- **C51 is violated: one process, any configuration.** Process 1 of two writes a cell, all flush, then process 0 overwrites the
cell and all flush. The last value is 2 (and C02 shows that it is what the connector returns). The metadata of both is written
when the file is closed, by process; h5lreplay applies it in this order and leaves the old value. -/
theorem C51_order_violated (enc share compact : Bool) : ∃ st a stc, Reach ⟨enc, share⟩ st a ∧ Fresh st 3000 ∧ Fresh st 4000 ∧
    3000 + Spec.queued a ≤ 4000 ∧ (∀ w ∈ a.done ++ a.queue.flatten, FitsNow a.dsets w) ∧ st.close 3000 4000 = .ok stc ∧ Small stc ∧
    lastByte (a.done ++ a.queue.flatten) 0 [0] 0 = some 2 ∧
    ∀ out, stc.replay 1 out → ∃ c, out = .ok c ∧ c 0 [0] 0 = some 1 := by
  have h : ∀ enc share compact, okWith (fun s => okWith (fun stc => freshB s.1 3000 && freshB s.1 4000 && smallB stc &&
      mdsB stc 1 && decide (s.2.dsets = [some ryD] ∧ s.2.done = [ryW 0 1, ryW 0 2] ∧ s.2.queue = [[], []] ∧
        s.2.flush.metaflush.secs = [[ryW 0 2], [ryW 0 1]]))
      (s.1.close 3000 4000)) (script ⟨enc, share⟩ compact 2 roOps) = true := by decide +kernel
  obtain ⟨⟨st, a⟩, h1, h2⟩ := okWith_iff (h enc share compact)
  obtain ⟨stc, h3, h4⟩ := okWith_iff h2
  simp only [Bool.and_eq_true, decide_eq_true_eq] at h4
  obtain ⟨⟨⟨⟨a1, a2⟩, a3⟩, a4⟩, a5, a6, a7, a8⟩ := h4
  have hr := script_reach (by decide) (by decide) h1
  have hq : Spec.queued a = 0 := by unfold Spec.queued; rw [a7]; rfl
  have hfit : ∀ w ∈ a.done ++ a.queue.flatten, FitsNow a.dsets w := by
    intro w hw
    rw [a6, a7] at hw
    simp only [List.mem_append, List.mem_cons, List.flatten_cons, List.flatten_nil, List.not_mem_nil, or_false] at hw
    rcases hw with rfl | rfl
    · exact ry_fits (by rw [a5]; rfl) (by decide) _
    · exact ry_fits (by rw [a5]; rfl) (by decide) _
  refine ⟨st, a, stc, hr, freshB_iff.mp a1, freshB_iff.mp a2, by rw [hq]; decide, hfit, h3, smallB_iff.mp a3, ?_, ?_⟩
  · rw [a6, a7]; decide +kernel
  · obtain ⟨stc', e1, e2⟩ := C51_single_partial _ hr (freshB_iff.mp a1) (freshB_iff.mp a2) (by rw [hq]; decide) hfit
    have e3 : stc' = stc := by
      have := e1.symm.trans h3
      simpa using this
    rw [e3] at e2
    intro out ho
    obtain ⟨c, c1, c2⟩ := (e2 (smallB_iff.mp a3) (mdsB_iff a4).1).2 out ho
    refine ⟨c, c1, ?_⟩
    rw [c2 0 ryD (by rw [a5]; rfl) [0] 0 (by decide), a8]
    decide +kernel

/-- A process that fails. -/
def isErr {α : Type} : Res α → Bool
  | .err => true
  | _ => false

theorem isErr_iff {α : Type} {x : Res α} (h : isErr x = true) : x = .err := by
  cases x <;> simp_all [isErr]

theorem replay_err {st : FState} (h : st.replayProc 1 0 = .err) {out : Res HData} (ho : st.replay 1 out) : out = .err := by
  rcases ho with ⟨ls, l, h1, h2, _, _⟩ | ⟨r, hr, h1, h2⟩ | ⟨r, hr, h1, _⟩
  · have := h2 0 (by omega)
    rw [h] at this; simp at this
  · exact h2
  · have : r = 0 := by omega
    subst this
    rw [h] at h1; simp at h1

/-- The contents after writes that do not touch the cell. -/
theorem foldl_hwrite_none {did : Nat} {x : List Nat} {k : Nat} : ∀ (l : List RWrite) (c : HData),
    (∀ w ∈ l, hwrite (fun _ _ _ => none) w did x k = none) → c did x k = none → l.foldl hwrite c did x k = none
  | [], _, _, hc => hc
  | w :: l, c, h, hc => by
    refine foldl_hwrite_none l (hwrite c w) (fun w' hw => h w' (by simp [hw])) ?_
    have h1 := h w (by simp)
    unfold hwrite at h1 ⊢
    split
    · rename_i hd
      rw [if_pos hd] at h1
      cases hf : (boxIdx w.blk.count).find? (fun y => decide (adds w.blk.start y = x)) with
      | none => simpa using hc
      | some y => rw [hf] at h1; simpa using h1
    · exact hc

/-- One process writes two cells. -/
def rlOps : List Op := [.dset ryD, .write 0 (ryW 0 1), .write 0 (ryW 1 2)]

/-- **C51 is violated: more processes than sections.** One process writes two cells of a dataset and closes the file (shared
metadata, the default). h5lreplay with four processes succeeds, and the second cell is not written. -/
theorem C51_lost_violated (enc compact : Bool) : ∃ st a stc, Reach ⟨enc, true⟩ st a ∧ st.close 1000 2000 = .ok stc ∧ Small stc ∧
    lastByte (a.done ++ a.queue.flatten) 0 [1] 0 = some 2 ∧ (∃ out, stc.replay 4 out) ∧
    ∀ out, stc.replay 4 out → ∃ c, out = .ok c ∧ c 0 [1] 0 = none := by
  have h : ∀ enc compact, okWith (fun s => okWith (fun stc => smallB stc && decide (s.2.done ++ s.2.queue.flatten = [ryW 0 1, ryW 1 2]) &&
      (List.range 4).all (fun r => okWith (fun l => decide (l = [ofAW (ryW 0 1)])) (stc.replayProc 4 r)))
      (s.1.close 1000 2000)) (script ⟨enc, true⟩ compact 1 rlOps) = true := by decide +kernel
  obtain ⟨⟨st, a⟩, h1, h2⟩ := okWith_iff (h enc compact)
  obtain ⟨stc, h3, h4⟩ := okWith_iff h2
  simp only [Bool.and_eq_true, decide_eq_true_eq] at h4
  obtain ⟨⟨a1, a2⟩, a3⟩ := h4
  have hp : ∀ r < 4, stc.replayProc 4 r = .ok [ofAW (ryW 0 1)] := by
    intro r hr
    obtain ⟨l, e1, e2⟩ := okWith_iff (List.all_eq_true.mp a3 r (List.mem_range.mpr hr))
    rw [decide_eq_true_eq] at e2
    rw [e1, e2]
  refine ⟨st, a, stc, script_reach (by decide) (by decide) h1, h3, smallB_iff.mp a1, by rw [a2]; decide +kernel, ?_, ?_⟩
  · obtain ⟨l, hl⟩ := interleaved_exists _ (List.replicate 4 [ofAW (ryW 0 1)]) rfl
    refine ⟨_, .inl ⟨_, l, rfl, ?_, hl, rfl⟩⟩
    intro r hr
    rw [hp r (by simpa using hr), List.getElem_replicate]
  · rintro out (⟨ls, l, e1, e2, e3, e4⟩ | ⟨r, hr, e1, _⟩ | ⟨r, hr, e1, _⟩)
    · refine ⟨_, e4, foldl_hwrite_none l _ ?_ rfl⟩
      intro w hw
      obtain ⟨m, m1, m2⟩ := List.mem_flatten.mp (e3.perm.mem_iff.mp hw)
      obtain ⟨i, hi, rfl⟩ := List.getElem_of_mem m1
      have := e2 i hi
      rw [hp i (by omega)] at this
      simp only [Res.ok.injEq] at this
      rw [← this, List.mem_singleton] at m2
      rw [m2]
      decide +kernel
    · rw [hp r hr] at e1; simp at e1
    · rw [hp r hr] at e1; simp at e1

/-- Process 1 writes a cell; the file is closed and opened again; process 0 overwrites it. -/
def rcOps : List Op := [.dset ryD, .write 1 (ryW 0 1), .reopen 1000 2000 2 [], .write 0 (ryW 0 2)]

/-- **C51 is violated: two processes.** A cell is overwritten after the file has been closed and opened again, by another
process. h5lreplay with two processes has an execution that leaves the old value. -/
theorem C51_race_violated (enc share compact : Bool) : ∃ st a stc, Reach ⟨enc, share⟩ st a ∧ st.close 3000 4000 = .ok stc ∧ Small stc ∧
    lastByte (a.done ++ a.queue.flatten) 0 [0] 0 = some 2 ∧ ∃ c, stc.replay 2 (.ok c) ∧ c 0 [0] 0 = some 1 := by
  have h : ∀ enc share compact, okWith (fun s => okWith (fun stc => smallB stc && decide (s.2.done ++ s.2.queue.flatten = [ryW 0 1, ryW 0 2]) &&
      okWith (fun l => decide (l = [ofAW (ryW 0 2)])) (stc.replayProc 2 0) && okWith (fun l => decide (l = [ofAW (ryW 0 1)])) (stc.replayProc 2 1))
      (s.1.close 3000 4000)) (script ⟨enc, share⟩ compact 2 rcOps) = true := by decide +kernel
  obtain ⟨⟨st, a⟩, h1, h2⟩ := okWith_iff (h enc share compact)
  obtain ⟨stc, h3, h4⟩ := okWith_iff h2
  simp only [Bool.and_eq_true, decide_eq_true_eq] at h4
  obtain ⟨⟨⟨a1, a2⟩, a3⟩, a4⟩ := h4
  obtain ⟨l0, b1, b2⟩ := okWith_iff a3
  obtain ⟨l1, b3, b4⟩ := okWith_iff a4
  rw [decide_eq_true_eq] at b2 b4
  subst b2 b4
  refine ⟨st, a, stc, script_reach (by decide) (by decide) h1, h3, smallB_iff.mp a1, by rw [a2]; decide +kernel,
    [ofAW (ryW 0 2), ofAW (ryW 0 1)].foldl hwrite (fun _ _ _ => none), ?_, by decide +kernel⟩
  refine .inl ⟨[[ofAW (ryW 0 2)], [ofAW (ryW 0 1)]], _, rfl, ?_, ?_, rfl⟩
  · intro r hr
    have hr' : r < 2 := hr
    rcases (by omega : r = 0 ∨ r = 1) with rfl | rfl
    · exact b1
    · exact b3
  · refine .step 0 _ [] _ rfl (.step 1 _ [] _ rfl (.done ?_))
    simp

/-- Two datasets are written; the file is closed; the first one has been removed when it is opened again. -/
def rdOps : List Op := [.dset ryD, .dset ryD, .write 0 (ryW 0 1), .write 0 { ryW 0 2 with did := 1 }, .reopen 1000 2000 1 [0]]

/-- **C51 is violated: removed datasets.** h5lreplay fails if a dataset that has been written was removed: nothing of the
other dataset is replayed. -/
theorem C51_removed_violated (enc share compact : Bool) : ∃ st a stc, Reach ⟨enc, share⟩ st a ∧ st.close 3000 4000 = .ok stc ∧ Small stc ∧
    a.dsets = [none, some ryD] ∧ lastByte (a.done ++ a.queue.flatten) 1 [0] 0 = some 2 ∧ ∀ out, stc.replay 1 out → out = .err := by
  have h : ∀ enc share compact, okWith (fun s => okWith (fun stc => smallB stc && decide (s.2.dsets = [none, some ryD]) &&
      decide (s.2.done ++ s.2.queue.flatten = [ryW 0 1, { ryW 0 2 with did := 1 }]) && isErr (stc.replayProc 1 0))
      (s.1.close 3000 4000)) (script ⟨enc, share⟩ compact 1 rdOps) = true := by decide +kernel
  obtain ⟨⟨st, a⟩, h1, h2⟩ := okWith_iff (h enc share compact)
  obtain ⟨stc, h3, h4⟩ := okWith_iff h2
  simp only [Bool.and_eq_true, decide_eq_true_eq] at h4
  obtain ⟨⟨⟨a1, a2⟩, a3⟩, a4⟩ := h4
  exact ⟨st, a, stc, script_reach (by decide) (by decide) h1, h3, smallB_iff.mp a1, a2, by rw [a3]; decide +kernel,
    fun out ho => replay_err (isErr_iff a4) ho⟩

/-- A cell is written, then the extent of the dataset is reduced. -/
def rsOps : List Op := [.dset ryD, .write 0 (ryW 0 1), .write 0 (ryW 3 2), .flush 500, .dims 0 [2]]

/-- **C51 is violated: reduced extents.** h5lreplay fails if a write is not contained in the present extent. -/
theorem C51_shrunk_violated (enc share compact : Bool) : ∃ st a stc, Reach ⟨enc, share⟩ st a ∧ st.close 3000 4000 = .ok stc ∧ Small stc ∧
    a.dsets = [some { ryD with dims := [2] }] ∧ lastByte (a.done ++ a.queue.flatten) 0 [0] 0 = some 1 ∧
    ∀ out, stc.replay 1 out → out = .err := by
  have h : ∀ enc share compact, okWith (fun s => okWith (fun stc => smallB stc && decide (s.2.dsets = [some { ryD with dims := [2] }]) &&
      decide (s.2.done ++ s.2.queue.flatten = [ryW 0 1, ryW 3 2]) && isErr (stc.replayProc 1 0))
      (s.1.close 3000 4000)) (script ⟨enc, share⟩ compact 1 rsOps) = true := by decide +kernel
  obtain ⟨⟨st, a⟩, h1, h2⟩ := okWith_iff (h enc share compact)
  obtain ⟨stc, h3, h4⟩ := okWith_iff h2
  simp only [Bool.and_eq_true, decide_eq_true_eq] at h4
  obtain ⟨⟨⟨a1, a2⟩, a3⟩, a4⟩ := h4
  exact ⟨st, a, stc, script_reach (by decide) (by decide) h1, h3, smallB_iff.mp a1, a2, by rw [a3]; decide +kernel,
    fun out ho => replay_err (isErr_iff a4) ho⟩

/-- **C51 is violated: filtered datasets.** For every data that compression changes: h5lreplay never writes the data of an entry
of a dataset with the deflate filter. -/
theorem C51_filter_violated {z : Zlib} (hb : Spec.Bounded z) {data : List Byte} (hne : z.comp data ≠ data) (cap : Nat) :
    ∃ stored, writeFilter z [.deflate] data = .ok stored ∧ ∀ buf, replayUnfilter z [.deflate] cap stored = .ok buf → buf ≠ data := by
  refine ⟨z.comp data, ?_, ?_⟩
  · unfold writeFilter
    rw [if_neg (by simp), filter_ok hb (by simp) (by intro f hf; simpa using hf)]
    rfl
  · intro buf hbuf
    unfold replayUnfilter at hbuf
    rw [if_neg (by simp)] at hbuf
    obtain ⟨out, _, h2⟩ := Res.bind_ok hbuf
    split at h2
    · simp at h2
    · simp only [Res.ok.injEq] at h2
      rw [← h2]; exact hne

/-- A library that meets the hypothesis, with a replay that succeeds. -/
example : ∃ z : Zlib, Spec.Bounded z ∧ z.comp [1, 1, 1] ≠ [1, 1, 1] ∧ replayUnfilter z [.deflate] 9 (z.comp [1, 1, 1]) = .ok [1, 1, 1, 7] :=
  ⟨⟨fun x => x ++ [7], fun n => n + 1⟩, fun x => by simp, by decide, by decide⟩

end Verif.Props
