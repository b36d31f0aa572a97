import Verif.Props.FileEx
import Verif.Props.Flush

/-
Concrete cases for the hypotheses of the theorems of `Props/Flush.lean` and of C17, C18, C19 and C21 in
`Props/File.lean`.
-/

namespace Verif.Props

open Spec (AW AFile WriteOK MayWrite Fresh Small Indexable Served ReqsOK ReadResult Viewable Reach Returns
  SectionMap InBlk)

theorem pairwise_short {α : Type} {R : α → α → Prop} {p : List α} (h : p.length ≤ 1) : p.Pairwise R := by
  match p, h with
  | [], _ => exact List.Pairwise.nil
  | [x], _ => exact List.pairwise_singleton _ _

theorem indexable_short {cfg : Cfg} {compact : Bool} {a : AFile} (h1 : ∀ p ∈ a.secs, p.length ≤ 1)
    (h2 : ∀ p ∈ a.secs, ∀ w ∈ p, ∀ b ∈ w.bs, ∀ n ∈ b.start, n < 2 ^ 31) : Indexable cfg compact a :=
  ⟨fun _ p hp => pairwise_short (h1 p hp), fun _ _ p hp => pairwise_short (h1 p hp),
    fun _ _ p hp => pairwise_short (h1 p hp),
    fun _ p hp w hw b hb n hn => h2 p hp w hw b hb n (List.mem_of_head? hn)⟩

/-! ### C09, C10, C11, C08: two processes with one queued write each -/

def gxRun (cfg : Cfg) (compact : Bool) (mbuf : Option Nat) : Res FState := do
  let s ← ((FState.create cfg compact mbuf 2 (fun _ => 0)).addDset fxD).write 0 0 fxA.bs fxA.data
  s.write 1 0 fxB.bs fxB.data

def gxFile : AFile := (((AFile.create 2).addDset fxD).write 0 fxA).write 1 fxB

theorem gx_reach {cfg : Cfg} {compact : Bool} {mbuf : Option Nat} {st : FState}
    (h : gxRun cfg compact mbuf = .ok st) : Reach cfg st gxFile := by
  unfold gxRun at h
  obtain ⟨s1, h1, h⟩ := Res.bind_ok h
  have r0 : Reach cfg ((FState.create cfg compact mbuf 2 (fun _ => 0)).addDset fxD)
      ((AFile.create 2).addDset fxD) :=
    Reach.addDset fxD (Reach.create compact mbuf 2 _ (by decide) (by decide))
  have r1 := Reach.write 0 fxA r0 (mayWrite_of (fxA_ok cfg) rfl (p := []) (q := []) rfl rfl (by decide)
    (by simp)) h1
  exact Reach.write 1 fxB r1 (mayWrite_of (fxB_ok cfg) rfl (p := []) (q := []) rfl rfl (by decide)
    (by simp)) h

/-- Hypotheses of `C09_flush_tiles`, and what it says here: process 0 gets 8 bytes at 1000, process 1 gets
6 bytes at 1008. -/
example (enc share compact : Bool) : ∃ st st', gxRun ⟨enc, share⟩ compact none = .ok st ∧
    st.flush 1000 = .ok st' ∧ (∀ k ∈ st.ranks, k.nflushed ≤ k.wreqs.length) ∧
    (∃ k ∈ st.ranks, ∃ r ∈ k.pending, r.data ≠ []) ∧
    (Spec.flushedNow st st').map (fun r => (r.foff, r.data.length)) = [(1000, 8), (1008, 6)] := by
  have h : ∀ enc share compact, okWith (fun st => okWith (fun st' =>
      decide ((∀ k ∈ st.ranks, k.nflushed ≤ k.wreqs.length) ∧
        (∃ k ∈ st.ranks, ∃ r ∈ k.pending, r.data ≠ []) ∧
        (Spec.flushedNow st st').map (fun r => (r.foff, r.data.length)) = [(1000, 8), (1008, 6)]))
      (st.flush 1000)) (gxRun ⟨enc, share⟩ compact none) = true := by decide +kernel
  obtain ⟨st, h1, h2⟩ := okWith_iff (h enc share compact)
  obtain ⟨st', h3, h4⟩ := okWith_iff h2
  rw [decide_eq_true_eq] at h4
  exact ⟨st, st', h1, h3, h4⟩

/-- Hypotheses of `C10_placed_once`, `C10_flush_again`, `C10_metaflush_once` and `C11_section_map`. -/
theorem gx_run (enc share compact : Bool) (mbuf : Bool) : ∃ st st1,
    gxRun ⟨enc, share⟩ compact (if mbuf then some 100 else none) = .ok st ∧ Fresh st 1000 ∧
    st.fileFlush 1000 = .ok st1 ∧ Small st1 ∧ Fresh st1 2000 ∧ Small (st1.metaflush 2000) ∧
    (∃ k ∈ st1.ranks, k.wreqs ≠ []) ∧
    Spec.secStart (st1.ranks.map (fun k => k.wreqs.flatMap WReq.bytes)) st1.ranks.length < 2 ^ 64 ∧
    (st1.metaflush 2000).mds.length = 1 ∧ st1.ranks.length = 2 := by
  have h : ∀ enc share compact (mbuf : Bool), okWith (fun st => okWith (fun st1 =>
      decide (Fresh st 1000 ∧ Small st1 ∧ Fresh st1 2000 ∧ Small (st1.metaflush 2000) ∧
    (∃ k ∈ st1.ranks, k.wreqs ≠ []) ∧
    Spec.secStart (st1.ranks.map (fun k => k.wreqs.flatMap WReq.bytes)) st1.ranks.length < 2 ^ 64 ∧
    (st1.metaflush 2000).mds.length = 1 ∧ st1.ranks.length = 2))
      (st.fileFlush 1000)) (gxRun ⟨enc, share⟩ compact (if mbuf then some 100 else none)) = true := by
    decide +kernel
  obtain ⟨st, h1, h2⟩ := okWith_iff (h enc share compact mbuf)
  obtain ⟨st1, h3, h4⟩ := okWith_iff h2
  rw [decide_eq_true_eq] at h4
  obtain ⟨a1, a2⟩ := h4
  exact ⟨st, st1, h1, a1, h3, a2⟩

example (enc share compact : Bool) : ∃ st st1, Reach ⟨enc, share⟩ st gxFile ∧ Fresh st 1000 ∧
    st.fileFlush 1000 = .ok st1 ∧ Small st1 ∧ Reach ⟨enc, share⟩ st1 gxFile.flush ∧
    gxFile.flush.done = [fxA, fxB] ∧ gxFile.flush.queue.flatten = [] ∧
    gxFile.flush.epoch = [[fxA], [fxB]] ∧ Small (st1.metaflush 2000) := by
  obtain ⟨st, st1, h1, h2, h3, h4, h5, h6, _⟩ := gx_run enc share compact false
  exact ⟨st, st1, gx_reach h1, h2, h3, h4, Reach.flush 1000 (gx_reach h1) h2 h3 h4, rfl, rfl, rfl, h6⟩

/-- Hypotheses of `C08_pieces_partial` and `C08_maximal`: the metadata dataset written by this history has two sections. -/
example (enc share compact : Bool) : ∃ (st : FState) (secs : List (List Byte)), secs.length = 2 ∧ st.mds.length = 1 ∧
    List.Forall₂ (fun e secs => SectionMap (fileBytes st.disk e.addr e.size) secs ∧ secs ≠ [] ∧
      e.size < 2 ^ 64) st.mds [secs] := by
  obtain ⟨st, st1, h1, h2, h3, h4, h5, h6, h7, h8, h9, h10⟩ := gx_run enc share compact false
  obtain ⟨size, e1, e2, _⟩ := C11_section_map st1 2000 (by
    intro hn; rw [hn] at h10; simp at h10) h7 h8
  have hs := h6 ⟨2000, size⟩ (by rw [e1]; simp)
  have hm : (st1.metaflush 2000).mds = [⟨2000, size⟩] := by
    rw [e1] at h9 ⊢
    simp only [List.length_append, List.length_singleton] at h9
    have : st1.mds = [] := List.length_eq_zero_iff.mp (by omega)
    rw [this]; rfl
  refine ⟨st1.metaflush 2000, st1.ranks.map (fun k => k.wreqs.flatMap WReq.bytes), ?_, h9, ?_⟩
  · rw [List.length_map]; exact h10
  · rw [hm]
    refine List.Forall₂.cons ⟨e2, ?_, ?_⟩ List.Forall₂.nil
    · intro hn
      rw [List.map_eq_nil_iff] at hn
      rw [hn] at h10
      simp at h10
    · simp only at hs ⊢
      omega

/-- Hypotheses of `C08_matches_partial`. -/
example (enc share compact mb : Bool) : ∃ st, Reach ⟨enc, share⟩ st (gxFile.prepare true) ∧
    Served ⟨enc, share⟩ st.compact (gxFile.prepare true) [fxQ] ∧
    Spec.ReqsWF st.compact (gxFile.prepare true).dsets [fxQ] ∧ (gxFile.prepare true).epoch.flatten = [] ∧
    (gxFile.prepare true).done = [fxA, fxB] ∧ (gxFile.prepare true).queue.length = 2 := by
  have h : ∀ enc share compact (mb : Bool), okWith (fun st => okWith (fun st1 =>
      decide (Fresh st 1000 ∧ Fresh st 2000 ∧ Small st1)) (st.prepare true 1000 2000))
      (gxRun ⟨enc, share⟩ compact (if mb then some 100 else none)) = true := by decide +kernel
  obtain ⟨st, h1, h2⟩ := okWith_iff (h enc share compact mb)
  obtain ⟨st1, h3, h4⟩ := okWith_iff h2
  rw [decide_eq_true_eq] at h4
  refine ⟨st1, Reach.prepare true 1000 2000 (gx_reach h1) h4.1 h4.2.1 (by decide) (Or.inl rfl) h3 h4.2.2,
    (indexable_short (by decide) (by decide)).served (fx_request _).1.wf, (fx_request _).1.wf, rfl, rfl, rfl⟩

/-- Hypotheses of `C08_empty_violated`. -/
example (cfg : Cfg) (compact : Bool) :
    (FState.create cfg compact (some 100) 2 (fun _ => 0)).mds = [] ∧
    (FState.create cfg compact (some 100) 2 (fun _ => 0)).idx[1]? = some none := ⟨rfl, rfl⟩

/-! ### C17, C18, C19, C21 -/

/-- Hypotheses of `C17_write_n_partial`: `fxA` writes two blocks. -/
example (enc share compact : Bool) : ∃ st st1, Reach ⟨enc, share⟩ st fxFile ∧ Fresh st 2000 ∧
    Fresh st 3000 ∧ 2000 + Spec.queued fxFile ≤ 3000 ∧
    Served ⟨enc, share⟩ st.compact fxFile.flush.metaflush [fxQ] ∧
    ReqsOK st.compact fxFile.dsets [fxQ] ∧ Viewable [fxQ] ∧
    fxFile.done ++ fxFile.queue.flatten = [] ++ [fxA] ++ [fxB] ∧ fxA.Sized ∧ fxA.bs.length = 2 ∧
    (∀ q ∈ [fxQ], q.did = fxA.did → q.d.esize = fxA.d.esize) ∧
    st.prepare true 2000 3000 = .ok st1 ∧ Small st1 := by
  obtain ⟨st, st1, h1, h2, h3, h4, h5, h6, h7⟩ := fx_run enc share compact
  exact ⟨st, st1, fx_reach h1, h6, h7, by decide, fx_served _ _, (fx_request _).1,
    (fx_request st.compact).2, rfl, Spec.AW.Exact.sized rfl, rfl, by decide, h2, h3⟩

/-- Hypotheses of `C17_later_block_wins`: the second block covers `(0, 1)` again. -/
example : let w : AW := AW.mk 0 fxD [⟨[0, 0], [1, 2]⟩, ⟨[0, 1], [1, 1]⟩] [1, 2, 3, 4, 5, 6]
    w.Sized ∧ InBlk w.bs[0] [0, 1] ∧ InBlk w.bs[1] [0, 1] ∧
    Spec.lastByte (Spec.splitWrite w) 0 [0, 1] 0 = some 5 := by
  refine ⟨Spec.AW.Exact.sized rfl, by decide, by decide, by decide⟩

def rxRun (cfg : Cfg) (compact : Bool) : Res FState :=
  ((FState.create cfg compact none 1 (fun _ => 0)).addDset wR.d).write 0 0 wR.bs wR.data

def rxFile : AFile := ((AFile.create 1).addDset wR.d).write 0 wR

theorem rx_request (compact : Bool) : ReqsOK compact rxFile.dsets [wRreq] := by
  refine ⟨?_, by decide, by decide, by decide, ?_, ?_, List.pairwise_singleton _ _, List.pairwise_singleton _ _⟩
  · simp [rxFile, wRreq, AFile.write, AFile.addDset, AFile.create]
  · intro _
    simp only [List.mem_singleton, forall_eq]
    intro b hb n hn
    have : ∀ b ∈ wRreq.bs, ∀ n ∈ b.start, n < 2 ^ 31 := by decide
    exact this b hb n (List.mem_of_head? hn)
  · simp only [List.mem_singleton, forall_eq]
    exact List.pairwise_singleton _ _

/-- Hypotheses of `C18_records_partial`: `wR` writes one record. -/
example (enc share compact : Bool) : ∃ st st1 n, Reach ⟨enc, share⟩ st rxFile ∧ Fresh st 2000 ∧
    Fresh st 3000 ∧ 2000 + Spec.queued rxFile ≤ 3000 ∧
    Served ⟨enc, share⟩ st.compact rxFile.flush.metaflush [wRreq] ∧
    ReqsOK st.compact rxFile.dsets [wRreq] ∧ Viewable [wRreq] ∧
    rxFile.done ++ rxFile.queue.flatten = [] ++ [wR] ++ [] ∧ wR.Sized ∧
    (∀ b ∈ wR.bs, b.start.head? = some n ∧ b.count.head? = some 1) ∧
    st.prepare true 2000 3000 = .ok st1 ∧ Small st1 := by
  have h : ∀ enc share compact, okWith (fun st => okWith (fun st1 =>
      decide (Fresh st 2000 ∧ Fresh st 3000 ∧ Small st1)) (st.prepare true 2000 3000))
      (rxRun ⟨enc, share⟩ compact) = true := by decide +kernel
  obtain ⟨st, h1, h2⟩ := okWith_iff (h enc share compact)
  obtain ⟨st1, h3, h4⟩ := okWith_iff h2
  rw [decide_eq_true_eq] at h4
  have r0 : Reach ⟨enc, share⟩ ((FState.create ⟨enc, share⟩ compact none 1 (fun _ => 0)).addDset wR.d)
      ((AFile.create 1).addDset wR.d) :=
    Reach.addDset wR.d (Reach.create compact none 1 _ (by decide) (by decide))
  refine ⟨st, st1, 2, Reach.write 0 wR r0 (mayWrite_of (wR_ok _) rfl (p := []) (q := []) rfl rfl (by decide)
    (by simp)) h1, h4.1, h4.2.1, by decide, (indexable_short (by decide) (by decide)).served (rx_request _).wf, rx_request _,
    viewable_one wRreq _ rfl, rfl, Spec.AW.Exact.sized rfl, by decide, h3, h4.2.2⟩

/-- Hypotheses of `C19_independent_partial`: two queued writes, nothing flushed. -/
example (enc share compact : Bool) : ∃ st st1, Reach ⟨enc, share⟩ st gxFile ∧ Fresh st 2000 ∧
    Fresh st 3000 ∧ 2000 + Spec.queued gxFile ≤ 3000 ∧ gxFile.queue.length ≠ 1 ∧
    gxFile.epoch.flatten = [] ∧ gxFile.queue = [[fxA], [fxB]] ∧
    Served ⟨enc, share⟩ st.compact gxFile.metaflush [fxQ] ∧
    Served ⟨enc, share⟩ st.compact gxFile.metaflush.flush.metaflush [fxQ] ∧
    ReqsOK st.compact gxFile.dsets [fxQ] ∧ Viewable [fxQ] ∧ st.mbuf = none ∧
    st.prepare false 2000 3000 = .ok st1 ∧ Small st1 := by
  have h : ∀ enc share compact, okWith (fun st => okWith (fun st1 =>
      decide (Fresh st 2000 ∧ Fresh st 3000 ∧ Small st1 ∧ st.mbuf = none)) (st.prepare false 2000 3000))
      (gxRun ⟨enc, share⟩ compact none) = true := by decide +kernel
  obtain ⟨st, h1, h2⟩ := okWith_iff (h enc share compact)
  obtain ⟨st1, h3, h4⟩ := okWith_iff h2
  rw [decide_eq_true_eq] at h4
  exact ⟨st, st1, gx_reach h1, h4.1, h4.2.1, by decide, by decide, rfl, rfl,
    (indexable_short (by decide) (by decide)).served (fx_request _).1.wf,
    (indexable_short (by decide) (by decide)).served (fx_request _).1.wf,
    (fx_request _).1, (fx_request st.compact).2, h4.2.2.2, h3, h4.2.2.1⟩

/-- Hypotheses of `C21_close_partial`: `fxA` flushed, `fxB` queued, opened again by three processes. -/
example (enc share compact compact' : Bool) : ∃ st st1, Reach ⟨enc, share⟩ st fxFile ∧ Fresh st 2000 ∧
    Fresh st 3000 ∧ 2000 + Spec.queued fxFile ≤ 3000 ∧
    Served ⟨enc, share⟩ compact' (fxFile.flush.metaflush.reopen 3 (fun _ => false)) [fxQ] ∧
    ReqsOK compact' (fxFile.dsets.mapIdx (fun i o => if (fun _ => false) i then none else o)) [fxQ] ∧
    Viewable [fxQ] ∧ st.close 2000 3000 = .ok st1 ∧ Small st1 := by
  have h : ∀ enc share compact, okWith (fun st => okWith (fun st1 =>
      decide (Fresh st 2000 ∧ Fresh st 3000 ∧ Small st1)) (st.close 2000 3000))
      (fxRun ⟨enc, share⟩ compact none) = true := by decide +kernel
  obtain ⟨st, h1, h2⟩ := okWith_iff (h enc share compact)
  obtain ⟨st1, h3, h4⟩ := okWith_iff h2
  rw [decide_eq_true_eq] at h4
  exact ⟨st, st1, fx_reach h1, h4.1, h4.2.1, by decide, (indexable_short (by decide) (by decide)).served (fx_request _).1.wf,
    (fx_request _).1, (fx_request compact').2, h3, h4.2.2⟩

end Verif.Props
