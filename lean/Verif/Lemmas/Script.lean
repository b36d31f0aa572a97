import Verif.Lemmas.FileTop

/-
Histories given by a list of operations with writes of single blocks: they are executed and their conditions checked by
computation.  Used for examples and counterexamples only.
-/

namespace Verif

open Spec (AW AFile WriteOK MayWrite Fresh Small Reach)

inductive Op where
  | dset (d : DInfo)
  | dims (did : Nat) (dims : List Nat)
  | write (r : Nat) (w : AW)
  | flush (doff : Nat)
  | prepare (doff mdoff : Nat)
  | reopen (doff mdoff np : Nat) (gone : List Nat)

def freshB (st : FState) (n : Nat) : Bool := (st.lds ++ st.mds).all (fun e => decide (e.addr + e.size ≤ n))

def smallB (st : FState) : Bool := (st.lds ++ st.mds).all (fun e => decide (e.addr + e.size < 2 ^ 63))

theorem freshB_iff {st : FState} {n : Nat} : freshB st n = true ↔ Fresh st n := by
  simp only [freshB, Fresh, List.all_eq_true, decide_eq_true_eq]

theorem smallB_iff {st : FState} : smallB st = true ↔ Small st := by
  simp only [smallB, Small, List.all_eq_true, decide_eq_true_eq]

/-- A write of one block that meets the conditions. -/
def oneB (w : AW) : Bool :=
  match w.bs with
  | [b] => decide (w.data.length = w.d.esize * b.size) && !w.data.isEmpty && decide (w.data.length < 2 ^ 31) &&
      decide (w.did < 2 ^ 31) && decide (b.start.length = w.d.ndim) && decide (b.count.length = w.d.ndim) &&
      b.start.all (fun x => decide (x < 2 ^ 64)) && b.count.all (fun x => decide (x < 2 ^ 31)) &&
      decide (48 + 8 * w.d.ndim + 16 * w.d.ndim < 2 ^ 31)
  | _ => false

theorem oneB_ok {w : AW} (cfg : Cfg) (h : oneB w = true) : WriteOK cfg w ∧ w.bs.length = 1 := by
  unfold oneB at h
  split at h
  · rename_i b hb
    simp only [Bool.and_eq_true, decide_eq_true_eq, List.all_eq_true, Bool.not_eq_true', List.isEmpty_eq_false_iff] at h
    obtain ⟨⟨⟨⟨⟨⟨⟨⟨h1, h2⟩, h3⟩, h4⟩, h5⟩, h6⟩, h7⟩, h8⟩, h9⟩ := h
    refine ⟨⟨?_, h2, h3, h4, ⟨by simp [hb], by simp [hb], ?_⟩, by simpa [hb] using h9, ?_, ?_⟩, by simp [hb]⟩
    · refine AW.Exact.sized ?_
      unfold AW.Exact
      rw [h1, hb]; simp
    · intro c hc
      rw [hb, List.mem_singleton] at hc
      subst hc
      exact ⟨h5, h6, h7, fun x hx => by have := h8 x hx; omega⟩
    · intro _ hl
      rw [hb] at hl; simp at hl
    · intro c hc
      rw [hb, List.mem_singleton] at hc
      subst hc
      exact h8
  · simp at h

def guardR {α : Type} (b : Bool) (x : Res α) : Res α := if b then x else .err

theorem guardR_ok {α : Type} {b : Bool} {x : Res α} {y : α} (h : guardR b x = .ok y) : b = true ∧ x = .ok y := by
  unfold guardR at h
  split at h
  · rename_i hb; exact ⟨hb, h⟩
  · simp at h

/-- One operation on the file and on the abstract file. -/
def runOp (compact : Bool) : Op → FState × AFile → Res (FState × AFile)
  | .dset d, s => .ok (s.1.addDset d, s.2.addDset d)
  | .dims did dims, s =>
    guardR (((s.2.dsets[did]?).getD none).any (fun d => decide (dims.length = d.ndim)))
      (.ok (s.1.setDims did dims, s.2.setDims did dims))
  | .write r w, s =>
    guardR (oneB w && decide (s.2.dsets[w.did]? = some (some w.d)) &&
        decide (((s.2.epoch[r]?).getD [] ++ (s.2.queue[r]?).getD []).length + 1 < 2 ^ 31))
      ((s.1.write r w.did w.bs w.data).bind (fun st => .ok (st, s.2.write r w)))
  | .flush doff, s =>
    guardR (freshB s.1 doff) ((s.1.fileFlush doff).bind (fun st => guardR (smallB st) (.ok (st, s.2.flush))))
  | .prepare doff mdoff, s =>
    guardR (freshB s.1 doff && freshB s.1 mdoff && decide (doff + Spec.queued s.2 ≤ mdoff))
      ((s.1.prepare true doff mdoff).bind (fun st => guardR (smallB st) (.ok (st, s.2.prepare true))))
  | .reopen doff mdoff np gone, s =>
    guardR (freshB s.1 doff && freshB s.1 mdoff && decide (doff + Spec.queued s.2 ≤ mdoff) && decide (0 < np) &&
        decide (np < 2 ^ 31))
      ((s.1.close doff mdoff).bind (fun st => guardR (smallB st)
        (.ok (st.reopen np compact none (fun i => decide (i ∈ gone)),
          s.2.flush.metaflush.reopen np (fun i => decide (i ∈ gone))))))

def runOps (compact : Bool) : List Op → FState × AFile → Res (FState × AFile)
  | [], s => .ok s
  | o :: os, s => (runOp compact o s).bind (runOps compact os)

/-- A history of operations, starting from a new file. -/
def script (cfg : Cfg) (compact : Bool) (np : Nat) (os : List Op) : Res (FState × AFile) :=
  runOps compact os (FState.create cfg compact none np (fun _ => 0), AFile.create np)

theorem runOp_reach {cfg : Cfg} {compact : Bool} {o : Op} {s s' : FState × AFile} (h : Reach cfg s.1 s.2)
    (ho : runOp compact o s = .ok s') : Reach cfg s'.1 s'.2 := by
  cases o with
  | dset d =>
    simp only [runOp, Res.ok.injEq] at ho
    rw [← ho]; exact h.addDset d
  | dims did dims =>
    obtain ⟨h1, h2⟩ := guardR_ok ho
    obtain ⟨d, d1, d2⟩ : ∃ d, s.2.dsets[did]? = some (some d) ∧ dims.length = d.ndim := by
      rcases hd : s.2.dsets[did]? with _ | _ | d
      · rw [hd] at h1; simp at h1
      · rw [hd] at h1; simp at h1
      · rw [hd] at h1
        exact ⟨d, rfl, by simpa using h1⟩
    simp only [Res.ok.injEq] at h2
    rw [← h2]; exact h.setDims did dims d d1 d2
  | write r w =>
    obtain ⟨h1, h2⟩ := guardR_ok ho
    obtain ⟨st, h3, h4⟩ := Res.bind_ok h2
    simp only [Res.ok.injEq] at h4
    simp only [Bool.and_eq_true, decide_eq_true_eq] at h1
    obtain ⟨⟨a1, a2⟩, a3⟩ := h1
    obtain ⟨b1, b2⟩ := oneB_ok cfg a1
    rw [← h4]
    refine h.write r w ⟨b1, a2, ?_, ?_⟩ h3
    · intro _ _ _ _ _ _ _ _ hl
      omega
    · intro p hp q hq
      rw [hp, hq] at a3
      exact a3
  | flush doff =>
    obtain ⟨h1, h2⟩ := guardR_ok ho
    obtain ⟨st, h3, h4⟩ := Res.bind_ok h2
    obtain ⟨h5, h6⟩ := guardR_ok h4
    simp only [Res.ok.injEq] at h6
    rw [← h6]
    exact h.flush doff (freshB_iff.mp h1) h3 (smallB_iff.mp h5)
  | prepare doff mdoff =>
    obtain ⟨h1, h2⟩ := guardR_ok ho
    obtain ⟨st, h3, h4⟩ := Res.bind_ok h2
    obtain ⟨h5, h6⟩ := guardR_ok h4
    simp only [Res.ok.injEq] at h6
    simp only [Bool.and_eq_true, decide_eq_true_eq] at h1
    rw [← h6]
    exact h.prepare true doff mdoff (freshB_iff.mp h1.1.1) (freshB_iff.mp h1.1.2) h1.2 (.inl rfl) h3 (smallB_iff.mp h5)
  | reopen doff mdoff np gone =>
    obtain ⟨h1, h2⟩ := guardR_ok ho
    obtain ⟨st, h3, h4⟩ := Res.bind_ok h2
    obtain ⟨h5, h6⟩ := guardR_ok h4
    simp only [Res.ok.injEq] at h6
    simp only [Bool.and_eq_true, decide_eq_true_eq] at h1
    obtain ⟨⟨⟨⟨a1, a2⟩, a3⟩, a4⟩, a5⟩ := h1
    rw [← h6]
    exact h.reopen doff mdoff np compact none _ (freshB_iff.mp a1) (freshB_iff.mp a2) a3 a4 a5 h3 (smallB_iff.mp h5)

theorem runOps_reach {cfg : Cfg} {compact : Bool} : ∀ {os : List Op} {s s' : FState × AFile}, Reach cfg s.1 s.2 →
    runOps compact os s = .ok s' → Reach cfg s'.1 s'.2
  | [], s, s', h, ho => by
    simp only [runOps, Res.ok.injEq] at ho
    rw [← ho]; exact h
  | o :: os, s, s', h, ho => by
    obtain ⟨t, h1, h2⟩ := Res.bind_ok (x := runOp compact o s) ho
    exact runOps_reach (runOp_reach h h1) h2

theorem script_reach {cfg : Cfg} {compact : Bool} {np : Nat} {os : List Op} {s : FState × AFile} (h0 : 0 < np)
    (h1 : np < 2 ^ 31) (h : script cfg compact np os = .ok s) : Reach cfg s.1 s.2 :=
  runOps_reach (Reach.create compact none np _ h0 h1) h

end Verif
