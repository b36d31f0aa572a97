import Verif.Props.FileEx
import Verif.Lemmas.Script

/-
C53: reads are repeatable, leave the file as it is and see the same file on all processes.
-/

namespace Verif.Props

open Spec (AW AFile Fresh Small Reach)

/-- The states agree on everything that is stored or queued; only the indexes kept in memory may differ. -/
structure SameFile (st st' : FState) : Prop where
  disk : st'.disk = st.disk
  lds : st'.lds = st.lds
  mds : st'.mds = st.mds
  ranks : st'.ranks = st.ranks
  dsets : st'.dsets = st.dsets
  saved : st'.saved = st.saved
  dirty : st'.metadirty = st.metadirty
  conf : st'.cfg = st.cfg ∧ st'.compact = st.compact ∧ st'.mbuf = st.mbuf

/-- Both states answer every read of every process in the same way. -/
def SameReads (st st' : FState) : Prop :=
  ∀ fuel r fill qs mem out, st'.reads fuel r fill qs mem out ↔ st.reads fuel r fill qs mem out

/-- The index that a process uses: the one kept in memory, else a new one. -/
def indexOf (st : FState) (r : Nat) : Res Idx :=
  match st.idx[r]? with
  | none => .ub
  | some (some ix) => .ok ix
  | some none => loadAll st.dsets st.cfg.share st.disk st.mds (Idx.empty st.compact)

theorem search_none {st : FState} (h : st.mbuf = none) (fuel r : Nat) (qs : List RReq) :
    st.search fuel r qs = (indexOf st r).bind (fun ix => (flatMapRes ix.search qs).bind
      (fun hs => .ok (hs, { st with idx := st.idx.set r (some ix) }))) := by
  unfold FState.search indexOf
  rw [h]
  cases h1 : st.idx[r]? with
  | none => rfl
  | some o => cases o <;> rfl

/-- What a read depends on: the hits, not the index left behind. -/
def hitsOf (st : FState) (fuel r : Nat) (qs : List RReq) : Res (List Hit) :=
  (st.search fuel r qs).bind (fun p => .ok p.1)

theorem reads_iff (st : FState) (fuel r : Nat) (fill : Nat → Option (List Byte)) (qs : List RReq) (mem : Mem) (out : Res Mem) :
    st.reads fuel r fill qs mem out ↔
      (∃ raw hs, hitsOf st fuel r qs = .ok raw ∧ SortedHits raw hs ∧ out = readHits st.disk hs (prefill fill qs mem)) ∨
      (hitsOf st fuel r qs = .err ∧ out = .err) ∨ (hitsOf st fuel r qs = .ub ∧ out = .ub) := by
  unfold FState.reads hitsOf
  cases h : st.search fuel r qs with
  | ok p =>
    obtain ⟨raw, st'⟩ := p
    constructor
    · rintro (⟨raw', st'', hs, e, h1, h2⟩ | ⟨e, _⟩ | ⟨e, _⟩)
      · simp only [Res.ok.injEq, Prod.mk.injEq] at e
        exact .inl ⟨raw', hs, by simp [Res.bind, e.1], h1, h2⟩
      · simp at e
      · simp at e
    · rintro (⟨raw', hs, e, h1, h2⟩ | ⟨e, _⟩ | ⟨e, _⟩)
      · simp only [Res.bind, Res.ok.injEq] at e
        exact .inl ⟨raw, st', hs, rfl, e ▸ h1, h2⟩
      · simp [Res.bind] at e
      · simp [Res.bind] at e
  | err => simp [Res.bind]
  | ub => simp [Res.bind]

theorem sameReads_of {st st' : FState} (hd : st'.disk = st.disk)
    (h : ∀ fuel r qs, hitsOf st' fuel r qs = hitsOf st fuel r qs) : SameReads st st' := by
  intro fuel r fill qs mem out
  rw [reads_iff, reads_iff, h, hd]

theorem hits_none {st : FState} (h : st.mbuf = none) (fuel r : Nat) (qs : List RReq) :
    hitsOf st fuel r qs = (indexOf st r).bind (fun ix => flatMapRes ix.search qs) := by
  unfold hitsOf
  rw [search_none h]
  cases indexOf st r with
  | ok ix => simp only [Res.bind]; cases flatMapRes ix.search qs <;> rfl
  | err => rfl
  | ub => rfl

theorem loadLoop_same {st st' : FState} (hd : st'.disk = st.disk) (hm : st'.mds = st.mds) (hs : st'.dsets = st.dsets)
    (hc : st'.cfg = st.cfg) (hk : st'.compact = st.compact) (lim : Nat) (qs : List RReq) :
    ∀ fuel pos, loadLoop st' lim qs fuel pos = loadLoop st lim qs fuel pos
  | 0, _ => rfl
  | fuel + 1, pos => by
    simp only [loadLoop, hd, hm, hs, hc, hk, loadLoop_same hd hm hs hc hk lim qs fuel]

theorem hits_same {st st' : FState} (h : SameFile st st') (hi : ∀ r, indexOf st' r = indexOf st r) (fuel r : Nat)
    (qs : List RReq) : hitsOf st' fuel r qs = hitsOf st fuel r qs := by
  cases hm : st.mbuf with
  | none =>
    rw [hits_none hm, hits_none (h.conf.2.2.trans hm), hi]
  | some lim =>
    unfold hitsOf FState.search
    rw [hm, h.conf.2.2.trans hm]
    simp only
    rw [loadLoop_same h.disk h.mds h.dsets h.conf.1 h.conf.2.1]
    cases loadLoop st lim qs fuel (0, 0) <;> rfl

theorem search_same {st st' : FState} {fuel r : Nat} {qs : List RReq} {raw : List Hit}
    (h : st.search fuel r qs = .ok (raw, st')) : SameFile st st' ∧ (∀ r', indexOf st' r' = indexOf st r') := by
  cases hm : st.mbuf with
  | some lim =>
    unfold FState.search at h
    rw [hm] at h
    obtain ⟨hs, _, h2⟩ := Res.bind_ok h
    simp only [Res.pure_eq, Res.ok.injEq, Prod.mk.injEq] at h2
    obtain ⟨_, rfl⟩ := h2
    exact ⟨⟨rfl, rfl, rfl, rfl, rfl, rfl, rfl, rfl, rfl, rfl⟩, fun _ => rfl⟩
  | none =>
    rw [search_none hm] at h
    obtain ⟨ix, h1, h2⟩ := Res.bind_ok h
    obtain ⟨hs, _, h3⟩ := Res.bind_ok h2
    simp only [Res.ok.injEq, Prod.mk.injEq] at h3
    obtain ⟨_, rfl⟩ := h3
    refine ⟨⟨rfl, rfl, rfl, rfl, rfl, rfl, rfl, rfl, rfl, rfl⟩, fun r' => ?_⟩
    unfold indexOf at h1 ⊢
    simp only [List.getElem?_set]
    by_cases hr : r = r'
    · subst hr
      by_cases hl : r < st.idx.length
      · simp only [hl, if_true]
        rw [List.getElem?_eq_getElem hl] at h1 ⊢
        cases ho : st.idx[r] with
        | none => rw [ho] at h1; simp only at h1 ⊢; exact h1.symm
        | some ix' => rw [ho] at h1; simpa using h1.symm
      · rw [List.getElem?_eq_none (by omega)] at h1
        simp at h1
    · simp [hr]

/-- **C53: a read changes nothing.** After any history, a read by a process leaves the data, the metadata, the datasets and the
writes queued by all processes as they are, and every later read by any process, of any blocks, has exactly the results that
it would have without it. -/
theorem C53_again (cfg : Cfg) {st st' : FState} {a : AFile} (_h : Reach cfg st a) {fuel r : Nat} {qs : List RReq}
    {raw : List Hit} (hs : st.search fuel r qs = .ok (raw, st')) : SameFile st st' ∧ SameReads st st' :=
  ⟨(search_same hs).1, sameReads_of (search_same hs).1.disk (hits_same (search_same hs).1 (search_same hs).2)⟩

/-- **C53: all processes see the same file.** After any history, whatever the processes have read before (and kept of it in
memory), a read of the same blocks has the same results on all of them. -/
theorem C53_processes (cfg : Cfg) {st : FState} {a : AFile} (h : Reach cfg st a) {r r' : Nat} (hr : r < a.queue.length)
    (hr' : r' < a.queue.length) (fuel : Nat) (fill : Nat → Option (List Byte)) (qs : List RReq) (mem : Mem) (out : Res Mem) :
    st.reads fuel r fill qs mem out ↔ st.reads fuel r' fill qs mem out := by
  obtain ⟨g, inv⟩ := reach_inv h
  have hl : st.idx.length = a.queue.length := by rw [inv.idxl, inv.np]
  have key : ∀ i, i < a.queue.length →
      indexOf st i = loadAll st.dsets st.cfg.share st.disk st.mds (Idx.empty st.compact) := by
    intro i hi
    unfold indexOf
    rw [List.getElem?_eq_getElem (by omega)]
    cases ho : st.idx[i]'(by omega) with
    | none => rfl
    | some ix => exact (inv.cache i ix (by rw [List.getElem?_eq_getElem (by omega), ho])).symm
  have hh : hitsOf st fuel r qs = hitsOf st fuel r' qs := by
    cases hm : st.mbuf with
    | none => rw [hits_none hm, hits_none hm, key r hr, key r' hr']
    | some lim => unfold hitsOf FState.search; rw [hm]
  rw [reads_iff, reads_iff, hh]

theorem prepared_queue (coll : Bool) (a : AFile) (hc : coll = true ∨ a.queue.length = 1) : (a.prepare coll).queue.flatten = [] := by
  unfold AFile.prepare
  rw [if_pos (by rcases hc with h | h <;> simp [h])]
  simp only [AFile.metaflush, AFile.flush, List.flatten_eq_nil_iff]
  intro l hl
  obtain ⟨_, _, rfl⟩ := List.mem_map.mp hl
  rfl

theorem prepared_epoch (coll : Bool) (a : AFile) : (a.prepare coll).epoch.flatten = [] := by
  unfold AFile.prepare
  simp only [AFile.metaflush, List.flatten_eq_nil_iff]
  intro l hl
  obtain ⟨_, _, rfl⟩ := List.mem_map.mp hl
  rfl

/-- **C53: a read that follows a read finds nothing to flush.** It starts from the state that the first one left. -/
theorem C53_prepare (cfg : Cfg) {st st1 st2 : FState} {a : AFile} (h : Reach cfg st a) {coll : Bool} {doff mdoff : Nat}
    (hf : Fresh st doff) (hf' : Fresh st mdoff) (hd : doff + Spec.queued a ≤ mdoff)
    (hc : coll = true ∨ a.queue.length = 1 ∨ a.epoch.flatten = [] ∨ a.queue.flatten = [])
    (h1 : st.prepare coll doff mdoff = .ok st1) (hs : Small st1) {fuel r : Nat} {qs : List RReq} {raw : List Hit}
    (h2 : st1.search fuel r qs = .ok (raw, st2)) (doff' mdoff' : Nat) : st2.prepare coll doff' mdoff' = .ok st2 := by
  have r1 : Reach cfg st1 (a.prepare coll) := .prepare coll doff mdoff h hf hf' hd hc h1 hs
  have r2 : Reach cfg st2 (a.prepare coll) := .search fuel r qs r1 (prepared_epoch coll a) h2
  obtain ⟨g, inv⟩ := reach_inv r2
  have hdirty : st2.metadirty = false := by
    rw [← Bool.not_eq_true]
    intro hx
    exact inv.dirty.mp hx (prepared_epoch coll a)
  have hlen : (a.prepare coll).queue.length = a.queue.length := by
    unfold AFile.prepare
    split <;> simp [AFile.metaflush, AFile.flush]
  have hno : ((coll || decide (st2.ranks.length = 1)) && st2.anyPending) = false := by
    rw [inv.np, hlen]
    by_cases hb : coll = true ∨ a.queue.length = 1
    · have : st2.anyPending = false := by
        rw [← Bool.not_eq_true]
        intro hx
        exact inv.anyPending.mp hx (prepared_queue coll a hb)
      simp [this]
    · simp only [not_or] at hb
      simp [hb.1, hb.2]
  unfold FState.prepare
  rw [hno]
  simp [hdirty]

def agD : DInfo := ⟨[4], [some 4], 1⟩
def agW (i : Nat) (v : Byte) : AW := ⟨0, agD, [⟨[i], [1]⟩], [v]⟩
def agQ : RReq := ⟨0, agD, [⟨[0], [4]⟩], 100⟩

/-- Both processes read a file with one write flushed and one queued: the hypotheses of `C53_again` hold twice, the read finds
the write. -/
example (enc share compact : Bool) : ∃ st a st1 st2 raw, Reach ⟨enc, share⟩ st a ∧ a.queue = [[], [agW 1 6]] ∧
    st.compact = compact ∧ st.search 0 0 [agQ] = .ok (raw, st1) ∧ st1.search 0 1 [agQ] = .ok (raw, st2) ∧ raw.length = 1 ∧
    st.idx = [none, none] ∧ (∀ o ∈ st2.idx, o.isSome) := by
  have h : ∀ enc share compact, okWith (fun s => decide (s.2.queue = [[], [agW 1 6]] ∧ s.1.compact = compact ∧
      s.1.idx = [none, none]) && okWith (fun p => decide (p.1.length = 1) && okWith (fun p' => decide (p'.1 = p.1) &&
        p'.2.idx.all Option.isSome) (p.2.search 0 1 [agQ])) (s.1.search 0 0 [agQ]))
      (script ⟨enc, share⟩ compact 2 [.dset agD, .write 0 (agW 0 5), .prepare 1000 2000, .write 1 (agW 1 6)]) = true := by
    decide +kernel
  obtain ⟨⟨st, a⟩, h1, h2⟩ := okWith_iff (h enc share compact)
  rw [Bool.and_eq_true, decide_eq_true_eq] at h2
  obtain ⟨⟨a1, a2, a3⟩, a4⟩ := h2
  obtain ⟨⟨raw, st1⟩, b1, b2⟩ := okWith_iff a4
  rw [Bool.and_eq_true, decide_eq_true_eq] at b2
  obtain ⟨⟨raw', st2⟩, c1, c2⟩ := okWith_iff b2.2
  rw [Bool.and_eq_true, decide_eq_true_eq] at c2
  have hr : raw' = raw := c2.1
  subst hr
  exact ⟨st, a, st1, st2, raw', script_reach (by decide) (by decide) h1, a1, a2, b1, c1, b2.1, a3, by simpa using c2.2⟩

/-- The hypotheses of `C53_prepare` hold for the history of `Props/FileEx.lean`. -/
example (enc share compact : Bool) : ∃ st a st1, Reach ⟨enc, share⟩ st a ∧ a.queue.flatten ≠ [] ∧ Fresh st 2000 ∧
    Fresh st 3000 ∧ 2000 + Spec.queued a ≤ 3000 ∧ st.prepare true 2000 3000 = .ok st1 ∧ Small st1 := by
  obtain ⟨st, st1, h1, h2, h3, h4, h5, h6, h7⟩ := fx_run enc share compact
  exact ⟨st, fxFile, st1, fx_reach h1, by decide, h6, h7, by decide, h2, h3⟩

end Verif.Props
