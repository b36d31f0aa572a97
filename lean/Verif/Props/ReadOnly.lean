import Verif.Model.ReadOnly
import Verif.Props.Again
import Verif.Props.FileEx

/-
C65, C66: files opened for reading only.
-/

namespace Verif.Props

open Spec (AW AFile Fresh Small Reach MayWrite Indexable Served ReqsOK ReqsWF Viewable Returns)

/-- What a session may change if it does not change the file: the queues and the indexes in memory. -/
structure SameStored (st st' : FState) : Prop where
  cfg : st'.cfg = st.cfg
  compact : st'.compact = st.compact
  mbuf : st'.mbuf = st.mbuf
  dsets : st'.dsets = st.dsets
  disk : st'.disk = st.disk
  lds : st'.lds = st.lds
  mds : st'.mds = st.mds
  dirty : st'.metadirty = st.metadirty
  saved : st'.saved = st.saved
  num : st'.ranks.length = st.ranks.length

theorem SameStored.trans {a b c : FState} (h : SameStored a b) (g : SameStored b c) : SameStored a c :=
  ⟨g.cfg.trans h.cfg, g.compact.trans h.compact, g.mbuf.trans h.mbuf, g.dsets.trans h.dsets, g.disk.trans h.disk,
    g.lds.trans h.lds, g.mds.trans h.mds, g.dirty.trans h.dirty, g.saved.trans h.saved, g.num.trans h.num⟩

theorem sameStored_refl (st : FState) : SameStored st st := ⟨rfl, rfl, rfl, rfl, rfl, rfl, rfl, rfl, rfl, rfl⟩

theorem write_parts {st st' : FState} {r did : Nat} {bs : List Blk} {data : List Byte} (h : st.write r did bs data = .ok st') :
    ∃ k k' d, st.ranks[r]? = some k ∧ writeRank st.cfg d did bs data k = .ok k' ∧ st' = { st with ranks := st.ranks.set r k' } := by
  unfold FState.write at h
  split at h
  next k d e1 e2 =>
    obtain ⟨k', h1, h2⟩ := Res.bind_ok h
    simp only [Res.pure_eq, Res.ok.injEq] at h2
    exact ⟨k, k', d, e1, h1, h2.symm⟩
  next => cases h

theorem ro_step {st st' : FState} (h : RoStep st st') : SameStored st st' := by
  cases h with
  | write r did bs data h =>
    obtain ⟨k, k', d, -, -, rfl⟩ := write_parts h
    exact ⟨rfl, rfl, rfl, rfl, rfl, rfl, rfl, rfl, rfl, by simp⟩
  | flush =>
    unfold FState.roFileFlush
    split
    · exact ⟨rfl, rfl, rfl, rfl, rfl, rfl, rfl, rfl, rfl, by simp [FState.roFlush]⟩
    · exact sameStored_refl st
  | prepare coll =>
    have key : ∀ p : FState × Bool, SameStored st p.1 → SameStored st (if p.2 then (p.1, !p.1.metadirty) else p).1 := by
      intro p hp
      split
      · exact hp
      · exact hp
    unfold FState.roPrepare
    dsimp only
    refine key _ ?_
    split
    · exact ⟨rfl, rfl, rfl, rfl, rfl, rfl, rfl, rfl, rfl, by simp [FState.roFlush]⟩
    · exact sameStored_refl st
  | search fuel r qs h =>
    have s := (search_same h).1
    exact ⟨s.conf.1, s.conf.2.1, s.conf.2.2, s.dsets, s.disk, s.lds, s.mds, s.dirty, s.saved, by rw [s.ranks]⟩

theorem ro_session {st0 st : FState} (h : RoSession st0 st) : SameStored st0 st := by
  induction h with
  | start => exact sameStored_refl st0
  | step _ hs ih => exact ih.trans (ro_step hs)

/-- C65: nothing that a session does changes a file it has opened for reading only: however the file is opened
afterwards, it is what it would be without the session. -/
theorem C65_unchanged {st0 st : FState} (h : RoSession st0 st) (np : Nat) (compact : Bool) (mbuf : Option Nat)
    (gone : Nat → Bool) : st.reopen np compact mbuf gone = st0.reopen np compact mbuf gone := by
  have s := ro_session h
  obtain ⟨a1, a2, a3, a4, a5, a6, a7, a8, a9, a10, a11⟩ := st
  obtain ⟨b1, b2, b3, b4, b5, b6, b7, b8, b9, b10, b11⟩ := st0
  obtain ⟨h1, h2, h3, h4, h5, h6, h7, h8, h9, h10⟩ := s
  simp only at h1 h2 h3 h4 h5 h6 h7 h8 h9
  subst h1 h2 h3 h4 h5 h6 h7 h8 h9
  rfl

/-! ### Reads -/

/-- The state without what the session has queued. -/
def unqueued (st0 st : FState) : FState := { st with ranks := st0.ranks }

theorem search_unqueued {st0 st st' : FState} {fuel r : Nat} {qs : List RReq} {raw : List Hit}
    (h : st.search fuel r qs = .ok (raw, st')) :
    (unqueued st0 st).search fuel r qs = .ok (raw, unqueued st0 st') := by
  cases hm : st.mbuf with
  | some lim =>
    unfold FState.search at h ⊢
    rw [hm] at h
    have hm' : (unqueued st0 st).mbuf = some lim := hm
    rw [hm']
    obtain ⟨hs, h1, h2⟩ := Res.bind_ok h
    simp only [Res.pure_eq, Res.ok.injEq, Prod.mk.injEq] at h2
    obtain ⟨rfl, rfl⟩ := h2
    dsimp only
    rw [loadLoop_same (st := st) (st' := unqueued st0 st) rfl rfl rfl rfl rfl, h1]
    rfl
  | none =>
    rw [search_none hm] at h
    rw [search_none (st := unqueued st0 st) hm]
    obtain ⟨ix, h1, h2⟩ := Res.bind_ok h
    obtain ⟨hs, h3, h4⟩ := Res.bind_ok h2
    simp only [Res.ok.injEq, Prod.mk.injEq] at h4
    obtain ⟨rfl, rfl⟩ := h4
    have h1' : indexOf (unqueued st0 st) r = .ok ix := h1
    rw [h1', Res.bind, h3]
    rfl

theorem reads_unqueued (st0 st : FState) : SameReads (unqueued st0 st) st := by
  refine sameReads_of rfl (fun fuel r qs => ?_)
  cases hm : st.mbuf with
  | none =>
    rw [hits_none hm, hits_none (st := unqueued st0 st) hm]
    rfl
  | some lim =>
    unfold hitsOf FState.search
    have hm' : (unqueued st0 st).mbuf = some lim := hm
    rw [hm, hm']
    dsimp only
    rw [loadLoop_same (st := st) (st' := unqueued st0 st) rfl rfl rfl rfl rfl]
    cases loadLoop st lim qs fuel (0, 0) <;> rfl

theorem ro_reach {cfg : Cfg} {st0 st : FState} {a : AFile} (h : Reach cfg st0 a) (he : a.epoch.flatten = [])
    (hs : RoSession st0 st) : Reach cfg (unqueued st0 st) a := by
  induction hs with
  | start => exact h
  | @step st st' _ hstep ih =>
    cases hstep with
    | write r did bs data hw =>
      obtain ⟨k, k', d, -, -, rfl⟩ := write_parts hw
      exact ih
    | flush =>
      unfold FState.roFileFlush
      split
      · exact ih
      · exact ih
    | prepare coll =>
      have key : ∀ p : FState × Bool, unqueued st0 p.1 = unqueued st0 st →
          unqueued st0 (if p.2 then (p.1, !p.1.metadirty) else p).1 = unqueued st0 st := by
        intro p hp
        split
        · exact hp
        · exact hp
      unfold FState.roPrepare
      dsimp only
      rw [key]
      · exact ih
      · split
        · rfl
        · rfl
    | search fuel r qs hq => exact .search fuel r qs ih he (search_unqueued hq)

/-- Independent reads in a session of several processes never fail before they look at the log. -/
theorem ro_prepare_ok {st : FState} {coll : Bool} (hd : st.metadirty = false)
    (h : (coll = false ∧ st.ranks.length ≠ 1) ∨ st.anyPending = false) : st.roPrepare coll = (st, true) := by
  have hc : ((coll || decide (st.ranks.length = 1)) && st.anyPending) = false := by
    rcases h with ⟨h1, h2⟩ | h
    · simp [h1, h2]
    · simp [h]
  unfold FState.roPrepare
  rw [hc]
  simp [hd]

/-- C66, partial: reads of a file opened for reading only return the writes of the sessions before. Whatever the session has
done, also if it has tried to write: every read that is not collective (with several processes), and every read if nothing is
queued, finds the log ready and returns for every cell the last write of the earlier sessions. -/
theorem C66_read_partial {cfg : Cfg} {st0 st : FState} {a : AFile} (h : Reach cfg st0 a) (he : a.epoch.flatten = [])
    (hs : RoSession st0 st) {coll : Bool} (hc : (coll = false ∧ a.queue.length ≠ 1) ∨ st.anyPending = false)
    {qs : List RReq} (hi : Served cfg st0.compact a qs)  (hq : ReqsOK st0.compact a.dsets qs) (hv : Viewable qs) {r : Nat}
    (hr : r < a.queue.length) (hm : st0.mbuf = none ∨ a.done ≠ []) :
    st.roPrepare coll = (st, true) ∧ Returns st r qs a.done := by
  have s := ro_session hs
  obtain ⟨g, inv⟩ := reach_inv h
  have hdirty : st0.metadirty = false := by
    rw [← Bool.not_eq_true]
    intro hx
    exact inv.dirty.mp hx he
  refine ⟨ro_prepare_ok (s.dirty.trans hdirty) (hc.imp_left fun x => ⟨x.1, by rw [s.num, inv.np]; exact x.2⟩), ?_⟩
  have hre := ro_reach h he hs
  have key := (reach_read hre (qs := qs) (r := r) (by show Served cfg st.compact a qs; rw [s.compact]; exact hi)
    (by show ReqsOK st.compact a.dsets qs; rw [s.compact]; exact hq) hr he
    (by show st.mbuf = none ∨ _; rw [s.mbuf]; exact hm)).1 hv
  obtain ⟨n, hn⟩ := key
  have e := reads_unqueued st0 st
  refine ⟨n, fun fuel hf fill mem => ?_⟩
  obtain ⟨⟨m, h1⟩, h2⟩ := hn fuel hf fill mem
  exact ⟨⟨m, (e fuel r fill qs mem _).mpr h1⟩, fun out ho => h2 out ((e fuel r fill qs mem out).mp ho)⟩

/-! ### Writes -/

theorem localOffs_len (acc : Nat) (l : List WReq) : (localOffs acc l).map (fun r => r.data.length) = l.map (fun r => r.data.length) := by
  induction l generalizing acc with
  | nil => rfl
  | cons r rs ih => simp [localOffs, ih]

/-- The amount of data a process has queued. -/
theorem setLocal_size (k : Rank) (h : k.nflushed ≤ k.wreqs.length) :
    k.setLocal.localSize = k.localSize ∧ k.setLocal.nflushed ≤ k.setLocal.wreqs.length := by
  have hl : (k.wreqs.take k.nflushed).length = k.nflushed := by rw [List.length_take]; omega
  constructor
  · unfold Rank.localSize
    have : k.setLocal.pending = localOffs 0 k.pending := by
      unfold Rank.pending Rank.setLocal
      dsimp only
      rw [List.drop_append, hl, Nat.sub_self, List.drop_zero, List.drop_eq_nil_of_le (by omega), List.nil_append]
      rfl
    rw [this, localOffs_len]
  · show k.nflushed ≤ (k.wreqs.take k.nflushed ++ localOffs 0 k.pending).length
    rw [List.length_append, hl]
    omega

/-- Something is queued that has to be written. -/
def Queued (st : FState) : Prop := ∃ k ∈ st.ranks, 0 < k.localSize

/-- Counters of flushed requests are in range. -/
def Counts (st : FState) : Prop := ∀ k ∈ st.ranks, k.nflushed ≤ k.wreqs.length

theorem reach_counts {cfg : Cfg} {st : FState} {a : AFile} (h : Reach cfg st a) : Counts st := by
  obtain ⟨g, inv⟩ := reach_inv h
  intro k hk
  rw [inv.ranks] at hk
  obtain ⟨x, hx, rfl⟩ := List.mem_map.mp hk
  have := inv.rok x hx
  rw [this.nfl, this.inv.reqs]
  simp

theorem dedup_keeps {cfg : Cfg} {r : WReq} {k : Rank} {x : WReq × List WReq} (h : dedup cfg r k = .ok x) : x.1.data = r.data := by
  unfold dedup at h
  split at h
  · obtain ⟨o, h1, h2⟩ := Res.bind_ok h
    cases o with
    | none => cases h2; rfl
    | some q => cases h2; rfl
  · cases h; rfl

theorem writeRank_size {cfg : Cfg} {d : DInfo} {did : Nat} {bs : List Blk} {data : List Byte} {k k' : Rank}
    (hc : k.nflushed ≤ k.wreqs.length) (h : writeRank cfg d did bs data k = .ok k') :
    k'.localSize = k.localSize + (if bs = [] then 0 else data.length) ∧ k'.nflushed ≤ k'.wreqs.length := by
  unfold writeRank at h
  by_cases hb : bs = []
  · rw [if_pos hb] at h
    cases h
    simp [hb, hc]
  · rw [if_neg hb] at h
    obtain ⟨x, h1, h2⟩ := Res.bind_ok h
    cases h2
    have hd : x.1.data = data := dedup_keeps h1
    constructor
    · unfold Rank.localSize Rank.pending
      dsimp only
      rw [List.drop_append_of_le_length hc, List.map_append, List.sum_append, if_neg hb]
      simp [hd]
    · show k.nflushed ≤ (k.wreqs ++ [x.1]).length
      rw [List.length_append]
      omega

theorem mem_set_or {α : Type} {l : List α} {r : Nat} {x y : α} (h : y ∈ l.set r x) : y ∈ l ∨ y = x := by
  rcases List.mem_or_eq_of_mem_set h with h | h
  · exact .inl h
  · exact .inr h

theorem setLocal_map {st : FState} (hc : Counts st) :
    Counts { st with ranks := st.ranks.map Rank.setLocal } ∧
      (Queued st → Queued { st with ranks := st.ranks.map Rank.setLocal }) := by
  constructor
  · intro k hk
    obtain ⟨x, hx, rfl⟩ := List.mem_map.mp hk
    exact (setLocal_size x (hc x hx)).2
  · rintro ⟨k, hk, h0⟩
    exact ⟨k.setLocal, List.mem_map.mpr ⟨k, hk, rfl⟩, by rw [(setLocal_size k (hc k hk)).1]; exact h0⟩

/-- What is queued stays queued. -/
theorem ro_queued_step {st st' : FState} (hc : Counts st) (h : RoStep st st') : Counts st' ∧ (Queued st → Queued st') := by
  cases h with
  | write r did bs data h =>
    obtain ⟨k, k', d, e1, e2, rfl⟩ := write_parts h
    have hk : k ∈ st.ranks := List.mem_of_getElem? e1
    have hw := writeRank_size (hc k hk) e2
    have hr : r < st.ranks.length := (List.getElem?_eq_some_iff.mp e1).1
    constructor
    · intro y hy
      rcases mem_set_or hy with hy | rfl
      · exact hc y hy
      · exact hw.2
    · rintro ⟨y, hy, h0⟩
      obtain ⟨i, hi, rfl⟩ := List.mem_iff_getElem.mp hy
      by_cases hir : i = r
      · subst hir
        have hek : st.ranks[i] = k := (List.getElem?_eq_some_iff.mp e1).2
        refine ⟨k', List.mem_iff_getElem.mpr ⟨i, by simpa using hi, by simp⟩, ?_⟩
        rw [hek] at h0
        rw [hw.1]
        omega
      · refine ⟨st.ranks[i], List.mem_iff_getElem.mpr ⟨i, by simpa using hi, ?_⟩, h0⟩
        rw [List.getElem_set_ne (fun e => hir e.symm)]
  | flush =>
    unfold FState.roFileFlush
    split
    · exact setLocal_map hc
    · exact ⟨hc, id⟩
  | prepare coll =>
    have key : ∀ p : FState × Bool, (Counts p.1 ∧ (Queued st → Queued p.1)) →
        Counts (if p.2 then (p.1, !p.1.metadirty) else p).1 ∧ (Queued st → Queued (if p.2 then (p.1, !p.1.metadirty) else p).1) := by
      intro p hp
      split
      · exact hp
      · exact hp
    unfold FState.roPrepare
    dsimp only
    refine key _ ?_
    split
    · exact setLocal_map hc
    · exact ⟨hc, id⟩
  | search fuel r qs h =>
    have s := (search_same h).1
    unfold Counts Queued
    rw [s.ranks]
    exact ⟨hc, id⟩

theorem ro_queued {st0 st : FState} (hc : Counts st0) (h : RoSession st0 st) : Counts st ∧ (Queued st0 → Queued st) := by
  induction h with
  | start => exact ⟨hc, id⟩
  | step _ hs ih =>
    have := ro_queued_step ih.1 hs
    exact ⟨this.1, fun h => this.2 (ih.2 h)⟩

theorem le_sum_mem {n : Nat} {l : List Nat} (h : n ∈ l) : n ≤ l.sum := by
  induction l with
  | nil => cases h
  | cons x xs ih =>
    rw [List.sum_cons]
    rcases List.mem_cons.mp h with rfl | h
    · omega
    · have := ih h
      omega

theorem queued_fails {st : FState} (h : Queued st) : st.roFileFlush.2 = false ∧
    ∀ coll : Bool, coll = true ∨ st.ranks.length = 1 → (st.roPrepare coll).2 = false := by
  obtain ⟨k, hk, h0⟩ := h
  have hp : st.anyPending = true := by
    unfold FState.anyPending
    rw [List.any_eq_true]
    refine ⟨k, hk, ?_⟩
    rw [decide_eq_true_eq]
    intro e
    unfold Rank.localSize at h0
    rw [e] at h0
    simp at h0
  have hz : st.roFlush.2 = false := by
    unfold FState.roFlush
    dsimp only
    rw [beq_eq_false_iff_ne]
    intro e
    have := le_sum_mem (List.mem_map.mpr ⟨k, hk, rfl⟩ : k.localSize ∈ st.ranks.map Rank.localSize)
    omega
  constructor
  · unfold FState.roFileFlush
    rw [if_pos hp]
    exact hz
  · intro coll hc
    unfold FState.roPrepare
    rcases hc with hc | hc <;> simp [hp, hz, hc]

/-- What is expected of a file opened for reading only: either writes are refused, or a write that is accepted does not make
other operations fail. -/
def Spec.RoWritesHarmless (st0 : FState) : Prop :=
  ∀ st st' st'' : FState, RoSession st0 st → ∀ r did bs data, st.write r did bs data = .ok st' → RoSession st' st'' →
    st''.roFileFlush.2 = true ∧ ∀ coll : Bool, coll = true ∨ st''.ranks.length = 1 → (st''.roPrepare coll).2 = true

/-- C66, violated: from the first accepted write of some data on, all flushes of the session fail, and all reads with one
process (or in collective mode, see `fileMode`), whatever else is done; closing the file succeeds, and the file is what it was: the write is lost without an error. -/
theorem C66_write_violated {cfg : Cfg} {st0 st st' st'' : FState} {a : AFile} (h : Reach cfg st0 a) (hs : RoSession st0 st)
    {r did : Nat} {bs : List Blk} {data : List Byte} (hb : bs ≠ []) (hd : data ≠ []) (hw : st.write r did bs data = .ok st')
    (hs' : RoSession st' st'') :
    st''.roFileFlush.2 = false ∧ (∀ coll : Bool, coll = true ∨ st''.ranks.length = 1 → (st''.roPrepare coll).2 = false) ∧
      st''.roClose ⟨false, false⟩ = true ∧
      (∀ np compact mbuf gone, st''.reopen np compact mbuf gone = st0.reopen np compact mbuf gone) ∧
      ¬ Spec.RoWritesHarmless st0 := by
  have h1 := ro_queued (reach_counts h) hs
  have hq : Queued st' := by
    obtain ⟨k, k', d, e1, e2, rfl⟩ := write_parts hw
    have hk : k ∈ st.ranks := List.mem_of_getElem? e1
    have hz := writeRank_size (h1.1 k hk) e2
    have hr : r < st.ranks.length := (List.getElem?_eq_some_iff.mp e1).1
    refine ⟨k', List.mem_iff_getElem.mpr ⟨r, by simpa using hr, by simp⟩, ?_⟩
    rw [hz.1, if_neg hb]
    have := List.length_pos_iff.mpr hd
    omega
  have hc' := (ro_queued_step h1.1 (.write r did bs data hw)).1
  have hq2 := (ro_queued hc' hs').2 hq
  have hf := queued_fails hq2
  have hall : RoSession st0 st'' := by
    have h0 : RoSession st0 st' := .step hs (.write r did bs data hw)
    clear hq2 hf hq
    induction hs' with
    | start => exact h0
    | step _ hx ih => exact .step ih hx
  refine ⟨hf.1, hf.2, rfl, fun np compact mbuf gone => C65_unchanged hall np compact mbuf gone, fun hh => ?_⟩
  have := (hh st st' st'' hs r did bs data hw hs').1
  rw [hf.1] at this
  cases this

/-- C66, violated: the under VOL would open a file without write permission for reading; the connector does not. -/
theorem C66_open_violated : ∃ perm f, underOpen perm f = .ok () ∧ logOpen perm f = .err := ⟨false, ⟨false, false⟩, rfl, rfl⟩

/-- C66, violated: a file opened for reading only with `H5F_ACC_SWMR_READ` can never be closed without an error. -/
theorem C66_swmr_violated (st : FState) : logOpen true ⟨false, true⟩ = .ok () ∧ st.roClose ⟨false, true⟩ = false := ⟨rfl, rfl⟩

/-! ### Examples -/

/-- Session 1 writes and closes, session 2 opens the file for reading only and tries to write. -/
def roBoth (cfg : Cfg) : Res (FState × FState × FState × FState) := do
  let s ← fxRun cfg false none
  let s1 ← s.close 2000 3000
  let s2 := s1.reopen 2 false none (fun _ => false)
  let s3 ← s2.write 0 0 fxA.bs fxA.data
  return (s, s1, s2, s3)

/-- The hypotheses of the theorems hold: the write is accepted, and the independent read returns the two writes of the first
session; flushes fail, and reads that flush. -/
example (enc share : Bool) : ∃ st0 st a, Reach ⟨enc, share⟩ st0 a ∧ a.done = [fxA, fxB] ∧ RoSession st0 st ∧
    st0.write 0 0 fxA.bs fxA.data = .ok st ∧ st.roPrepare false = (st, true) ∧ Returns st 1 [fxQ] [fxA, fxB] ∧
    (st.roPrepare true).2 = false ∧ st.roFileFlush.2 = false := by
  have hk : okWith (fun x => decide (Fresh x.1 2000 ∧ Fresh x.1 3000 ∧ Small x.2.1)) (roBoth ⟨enc, share⟩) = true := by
    cases enc <;> cases share <;> decide +kernel
  obtain ⟨⟨s, s1, s2, s3⟩, h, hp⟩ := okWith_iff hk
  obtain ⟨f1, f2, f3⟩ := of_decide_eq_true hp
  unfold roBoth at h
  obtain ⟨t, h1, h⟩ := Res.bind_ok h
  obtain ⟨t1, h2, h⟩ := Res.bind_ok h
  obtain ⟨t3, h3, h⟩ := Res.bind_ok h
  simp only [Res.pure_eq, Res.ok.injEq, Prod.mk.injEq] at h
  obtain ⟨rfl, rfl, rfl, rfl⟩ := h
  have hre := Reach.reopen 2000 3000 2 false none (fun _ => false) (fx_reach h1) f1 f2 (by decide) (by decide) (by decide) h2 f3
  have hw := C66_write_violated hre .start (by decide) (by decide) h3 .start
  have hse : RoSession _ t3 := .step .start (.write 0 0 fxA.bs fxA.data h3)
  have hr := C66_read_partial hre (by decide) hse (coll := false) (qs := [fxQ]) (r := 1) (Or.inl ⟨rfl, by decide⟩)
    (fx_served ⟨enc, share⟩ false) (fx_request false).1 (fx_request false).2 (by decide) (Or.inl rfl)
  exact ⟨_, t3, _, hre, rfl, hse, h3, hr.1, hr.2, hw.2.1 true (.inl rfl), hw.1⟩

end Verif.Props
