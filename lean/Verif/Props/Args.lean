import Verif.Lemmas.Args
import Verif.Props.Queue

/-
C80: the arguments of H5Dwrite_n and H5Dread_n.
-/

namespace Verif.Props

open Spec (AW AFile Reach values asked arrsAfter StillHolds vstep vrun VOp)

theorem alike_start {s : NState} {np : Nat} (h : s.rq = List.replicate np []) :
    Alike s ⟨s.st, List.replicate np [], s.mem⟩ [] (List.replicate np []) := by
  refine ⟨by rw [h]; simp, by simp, rfl, rfl, ?_⟩
  intro r a bs
  constructor
  · rintro ⟨l, h1, x, h2, _⟩
    have := List.mem_of_getElem? h1
    rw [List.eq_of_mem_replicate this] at h2
    simp at h2
  · intro h
    simp at h

theorem alike_length {s : NState} {q : QState} {A : List (Nat × Nat × List Blk)} {G : List (List (RReq × Option Nat))} (h : Alike s q A G) :
    s.rq.length = q.rq.length := by
  rw [h.rq, h.vq]
  simp

theorem vrun_length : ∀ (vs : List VOp) (q q' : QState), vrun vs q = .ok q' → q'.rq.length = q.rq.length := by
  intro vs
  induction vs with
  | nil =>
    intro q q' h
    simp only [vrun, Res.ok.injEq] at h
    rw [h]
  | cons v vs ih =>
    intro q q' h
    obtain ⟨q1, h1, h2⟩ := Res.bind_ok (show (vstep v q >>= vrun vs) = .ok q' from h)
    rw [ih q1 q' h2]
    have file : ∀ f, q.onFile f = .ok q1 → q1.rq.length = q.rq.length := by
      intro f hf
      obtain ⟨st, _, e⟩ := Res.bind_ok hf
      simp only [Res.pure_eq, Res.ok.injEq] at e
      rw [← e]
    cases v with
    | write r did bs data => exact file _ h1
    | read r did bs xbuf =>
      unfold vstep at h1
      dsimp only at h1
      split at h1
      · split at h1
        · simp only [Res.ok.injEq] at h1
          rw [← h1]
          simp [QState.read]
        · simp at h1
      · simp at h1
    | file f => exact file f h1

/-- **C80: the calls.** Between two flushes, any sequence of H5Dwrite_n, buffered H5Dread_n and H5Dread, calls on the file, and changes of the
arrays by the application has the result that it has when every call gets the blocks that its arrays hold when it is made: the same
success or failure, file and memory.  The requests queued in the end stand for the blocks of their calls if, and only if, the arrays of every H5Dread_n
hold in the end what they held at the call. -/
theorem C80_calls (np : Nat) (s : NState) (hq : s.rq = List.replicate np []) (ha : s.arrs.length = np) (ops : List AOp) (vs : List VOp)
    (hv : values s.arrs ops = .ok vs) :
    (∃ s' q', s.run ops = .ok s' ∧ vrun vs ⟨s.st, List.replicate np [], s.mem⟩ = .ok q' ∧ s'.st = q'.st ∧ s'.mem = q'.mem ∧
      s'.arrs = arrsAfter s.arrs ops ∧
      (resolveAll s'.arrs s'.rq = .ok q'.rq ↔ ∀ p ∈ asked s.arrs ops, StillHolds (arrsAfter s.arrs ops) p)) ∨
    (s.run ops = .err ∧ vrun vs ⟨s.st, List.replicate np [], s.mem⟩ = .err) ∨
    (s.run ops = .ub ∧ vrun vs ⟨s.st, List.replicate np [], s.mem⟩ = .ub) := by
  rcases run_alike ops vs s _ [] _ (alike_start hq) hv with ⟨s', q', G', h1, h2, h3, h4, h5⟩ | h | h
  · refine Or.inl ⟨s', q', h1, h2, h5.st, h5.mem, h3, ?_⟩
    have hl : s'.arrs.length = s'.rq.length := by
      rw [h4, ha, alike_length h5, vrun_length _ _ _ h2]
      simp
    rw [alike_resolve h5 hl, h3]
    simp
  · exact Or.inr (Or.inl h)
  · exact Or.inr (Or.inr h)

/-- **C80, partial: arrays that hold in the end what they held at the call.** H5Fflush then does what it does when every call gets its blocks
by value (see `C76_flush_partial` for what that is).  Missing: arrays that have been changed or freed, see `C80_changed_violated` and
`C80_freed_violated`. -/
theorem C80_flush_partial (np : Nat) (s : NState) (hq : s.rq = List.replicate np []) (ha : s.arrs.length = np) (ops : List AOp) (vs : List VOp)
    (hv : values s.arrs ops = .ok vs) (hold : ∀ p ∈ asked s.arrs ops, StillHolds (arrsAfter s.arrs ops) p) (s' : NState) (hs : s.run ops = .ok s') :
    ∃ q', vrun vs ⟨s.st, List.replicate np [], s.mem⟩ = .ok q' ∧ s'.st = q'.st ∧ s'.mem = q'.mem ∧
      ∀ fuel fill doff mdoff out, s'.Flush fuel fill doff mdoff out ↔
        ∃ o, q'.Flush fuel fill doff mdoff o ∧ out = o.bind fun q => .ok ⟨q.st, List.replicate np [], q.mem, s'.arrs⟩ := by
  rcases run_alike ops vs s _ [] _ (alike_start hq) hv with ⟨s1, q', G', h1, h2, h3, h4, h5⟩ | h | h
  · rw [hs] at h1
    simp only [Res.ok.injEq] at h1
    subst h1
    have hlen : s'.rq.length = np := by
      rw [alike_length h5, vrun_length _ _ _ h2]
      simp
    have hres : resolveAll s'.arrs s'.rq = .ok q'.rq := by
      rw [alike_resolve h5 (by rw [h4, ha, hlen]), h3]
      simpa using hold
    have hrep : (s'.rq.map fun _ => ([] : List NReq)) = List.replicate np [] := by
      rw [List.map_const', hlen]
    refine ⟨q', h2, h5.st, h5.mem, ?_⟩
    intro fuel fill doff mdoff out
    have heq : (⟨s'.st, q'.rq, s'.mem⟩ : QState) = q' := by rw [h5.st, h5.mem]
    constructor
    · intro h
      cases h with
      | run e1 e2 =>
        rw [hres] at e1
        simp only [Res.ok.injEq] at e1
        subst e1
        rw [heq] at e2
        exact ⟨_, e2, by rw [hrep]⟩
      | dangling e1 _ => rw [hres] at e1; simp at e1
      | broken e1 _ => rw [hres] at e1; simp at e1
    · rintro ⟨o, h, rfl⟩
      rw [← hrep]
      exact .run hres (by rw [heq]; exact h)
  · rw [hs] at h; simp at h
  · rw [hs] at h; simp at h

theorem resolveList_none {m : Arrs} {addr n : Nat} (hm : m addr = none) : ∀ (l : List NReq), (∃ q ∈ l, q.src = .app addr n) → resolveList m l = .ub := by
  have noerr : ∀ q : NReq, q.resolve m ≠ .err := by
    intro q h
    unfold NReq.resolve at h
    split at h
    · simp at h
    · unfold Arrs.blocks at h
      split at h
      · split at h <;> simp [Res.bind] at h
      · simp [Res.bind] at h
  intro l
  induction l with
  | nil => rintro ⟨q, h, _⟩; simp at h
  | cons p l ih =>
    rintro ⟨q, hq, hs⟩
    unfold resolveList
    cases hp : p.resolve m with
    | ub => rfl
    | err => exact absurd hp (noerr p)
    | ok p' =>
      rcases List.mem_cons.mp hq with rfl | hq
      · unfold NReq.resolve at hp
        rw [hs] at hp
        simp [Arrs.blocks, hm, Res.bind] at hp
      · rw [ih ⟨q, hq, hs⟩]
        rfl

theorem resolveList_noerr {m : Arrs} : ∀ (l : List NReq), resolveList m l ≠ .err := by
  intro l
  induction l with
  | nil => simp [resolveList]
  | cons p l ih =>
    intro h
    unfold resolveList at h
    unfold NReq.resolve at h
    split at h
    · cases hl : resolveList m l with
      | ok x => rw [hl] at h; simp [Res.bind] at h
      | ub => rw [hl] at h; simp [Res.bind] at h
      | err => exact ih hl
    · unfold Arrs.blocks at h
      split at h
      · split at h
        · cases hl : resolveList m l with
          | ok x => rw [hl] at h; simp [Res.bind] at h
          | ub => rw [hl] at h; simp [Res.bind] at h
          | err => exact ih hl
        · simp [Res.bind] at h
      · simp [Res.bind] at h

theorem resolveAll_none : ∀ (ms : List Arrs) (qss : List (List NReq)) (r addr n : Nat) (m : Arrs) (l : List NReq), ms[r]? = some m → m addr = none →
    qss[r]? = some l → (∃ q ∈ l, q.src = .app addr n) → resolveAll ms qss = .ub := by
  intro ms
  induction ms with
  | nil => intro qss r addr n m l h; simp at h
  | cons m0 ms ih =>
    intro qss r addr n m l h1 h2 h3 h4
    cases qss with
    | nil => simp at h3
    | cons qs qss =>
      unfold resolveAll
      cases r with
      | zero =>
        simp only [List.getElem?_cons_zero, Option.some.injEq] at h1 h3
        subst h1 h3
        rw [resolveList_none h2 qs h4]
        rfl
      | succ r =>
        cases hq : resolveList m0 qs with
        | ub => rfl
        | err => exact absurd hq (resolveList_noerr qs)
        | ok q =>
          rw [ih qss r addr n m l (by simpa using h1) h2 (by simpa using h3) h4]
          rfl

/-- **C80 is violated: arrays freed before the flush.** Whatever the file, the dataset and the blocks: a process queues an H5Dread_n of at
least one block, frees the arrays it has passed, and the flush, in which the writes succeed, accesses them. -/
theorem C80_freed_violated (s s1 : NState) (r addr n did xbuf : Nat) (hn : n ≠ 0) (h : s.step (.readN r addr n did xbuf) = .ok s1)
    (doff mdoff : Nat) (st1 : FState) (hf : s.st.fileFlush doff = .ok st1) :
    ∃ s2, s1.step (.set r addr none) = .ok s2 ∧ ∀ fuel fill out, s2.Flush fuel fill doff mdoff out ↔ out = .ub := by
  refine ⟨_, rfl, ?_⟩
  unfold NState.step at h
  dsimp only at h
  rw [if_neg hn] at h
  obtain ⟨bs, h1, h2⟩ := Res.bind_ok h
  unfold NState.push at h2
  split at h2
  · rename_i d hd
    split at h2
    · rename_i hr
      simp only [Res.ok.injEq] at h2
      subst h2
      unfold fetch at h1
      split at h1
      · rename_i m hm
        have hres : resolveAll (setArr r addr none s.arrs) (s.rq.modify r (· ++ [⟨did, d, .app addr n, xbuf⟩])) = .ub := by
          refine resolveAll_none _ _ r addr n (fun a => if a = addr then none else m a) (s.rq[r] ++ [⟨did, d, .app addr n, xbuf⟩]) ?_ ?_ ?_ ?_
          · unfold setArr
            simp [hm]
          · simp
          · simp [hr]
          · exact ⟨⟨did, d, .app addr n, xbuf⟩, by simp, rfl⟩
        intro fuel fill out
        constructor
        · intro ho
          cases ho with
          | run e1 _ =>
            dsimp only at e1
            rw [hres] at e1
            simp at e1
          | dangling => rfl
          | broken _ e2 =>
            dsimp only at e2
            rw [hf] at e2
            simp at e2
        · rintro rfl
          exact .dangling hres (by dsimp only; rw [hf]; simp)
      · simp at h1
    · simp at h2
  · simp at h2

/-- An array of one process that holds the block of cell 4. -/
def argArr : Arrs := fun a => if a = 7 then some [⟨[4], [1]⟩] else none

def argOps : List AOp := [.readN 0 7 1 0 100, .set 0 7 (some [⟨[5], [2]⟩])]

def argQ : RReq := ⟨0, nxD, [⟨[5], [2]⟩], 100⟩

/-- **C80 is violated: arrays used again before the flush.** Cell 4 has the value 2, cells 5 and 6 have the value 1.  An H5Dread_n of cell 4 into the one byte at 100 is
queued; then the application uses its arrays for another block, cells 5 and 6.  The flush succeeds, the buffer receives 1 for cell 4, and the byte after it is overwritten. -/
theorem C80_changed_violated (enc share compact : Bool) : ∃ st, Reach ⟨enc, share⟩ st mxFile ∧ st.compact = compact ∧
    Spec.expected (mxFile.done ++ mxFile.queue.flatten) (fun _ => none) 0 [4] 0 0 = 2 ∧
    asked [argArr] argOps = [(0, 7, [⟨[4], [1]⟩])] ∧
    ∃ s, (⟨st, [[]], [fun _ => 0], [argArr]⟩ : NState).run argOps = .ok s ∧ ∀ fuel, ∃ st' m,
      s.Flush fuel (fun _ => none) 1000 2000 (.ok ⟨st', [[]], [m], s.arrs⟩) ∧ m 100 = 1 ∧ m 101 = 1 := by
  have h : ∀ enc share compact, okWith (fun st => decide (st.compact = compact ∧ st.dsets[0]? = some (some nxD)) && okWith (fun stf =>
      decide (stf.dsets = st.dsets ∧ [argQ].map (RReq.now st.dsets) = [argQ]) &&
      decide ((if stf.metadirty then stf.metaflush 2000 else stf).mbuf = none) &&
      okWith (fun raw => decide (raw.1.Pairwise (fun a b => hitLt b a = false)) && okWith (fun m => decide (m 100 = 1 ∧ m 101 = 1))
          (readHitsF (if stf.metadirty then stf.metaflush 2000 else stf).disk raw.1 (prefill (fun _ => none) [argQ] (fun _ => 0))))
        ((if stf.metadirty then stf.metaflush 2000 else stf).search 0 0 [argQ])) (st.fileFlush 1000)) (mxRun ⟨enc, share⟩ compact) = true := by
    decide +kernel
  obtain ⟨st, h1, h2⟩ := okWith_iff (h enc share compact)
  rw [Bool.and_eq_true, decide_eq_true_eq] at h2
  obtain ⟨⟨g1, g2⟩, h2⟩ := h2
  obtain ⟨stf, h3, h4⟩ := okWith_iff h2
  rw [Bool.and_eq_true, Bool.and_eq_true, decide_eq_true_eq, decide_eq_true_eq] at h4
  obtain ⟨⟨⟨a1, a2⟩, a3⟩, a4⟩ := h4
  obtain ⟨⟨raw, st'⟩, s1, s2⟩ := okWith_iff a4
  rw [Bool.and_eq_true, decide_eq_true_eq] at s2
  obtain ⟨m, m1, m2⟩ := okWith_iff s2.2
  have hrun : (⟨st, [[]], [fun _ => 0], [argArr]⟩ : NState).run argOps =
      .ok ⟨st, [[⟨0, nxD, .app 7 1, 100⟩]], [fun _ => 0], setArr 0 7 (some [⟨[5], [2]⟩]) [argArr]⟩ := by
    have e : (⟨st, [[]], [fun _ => 0], [argArr]⟩ : NState).push 0 0 (.app 7 1) 100 =
        .ok ⟨st, [[⟨0, nxD, .app 7 1, 100⟩]], [fun _ => 0], [argArr]⟩ := by
      unfold NState.push
      dsimp only
      rw [g2]
      rfl
    show (NState.push 0 0 (.app 7 1) 100 _).bind _ = _
    rw [e]
    rfl
  refine ⟨st, mx_reach h1, g1, by decide +kernel, rfl, _, hrun, fun fuel => ⟨st', m, ?_, by simpa using m2⟩⟩
  rw [search_fuel a3 0 fuel] at s1
  have hr := ReadAll.ok (Or.inl ⟨raw, st', raw, s1, ⟨List.Perm.refl _, s2.1⟩, (readHitsF_eq m1).symm⟩) s1
    (ReadAll.nil (fuel := fuel) (fill := fun _ => none) 1 st')
  have := QState.Flush.reads (s := ⟨st, [[argQ]], [fun _ => 0]⟩) (mdoff := 2000) h3 (by simp) (by
    show ReadAll _ _ _ _ [[argQ].map (RReq.now stf.dsets)] _ _
    rw [a1, a2]
    exact hr)
  exact NState.Flush.run (s := ⟨st, [[⟨0, nxD, .app 7 1, 100⟩]], [fun _ => 0], setArr 0 7 (some [⟨[5], [2]⟩]) [argArr]⟩) (rq := [[argQ]]) rfl this

/-! ### Concrete cases -/

/-- The arrays are used for a write after a read has been queued from another address, then changed and changed back. -/
def argOps2 : List AOp :=
  [.readN 0 7 1 0 100, .set 0 9 (some [⟨[5], [1]⟩, ⟨[8], [1]⟩]), .writeN 0 9 2 0 [3, 4], .set 0 9 none, .set 0 7 none, .read 0 0 [⟨[0], [2]⟩] 200,
    .set 0 7 (some [⟨[4], [1]⟩, ⟨[1], [1]⟩])]

/-- The hypotheses of `C80_calls` and `C80_flush_partial`. -/
example (enc share compact : Bool) : ∃ st, Reach ⟨enc, share⟩ st mxFile ∧ st.compact = compact ∧
    (∃ vs, values [argArr] argOps2 = .ok vs ∧ vs.length = 3) ∧ asked [argArr] argOps2 = [(0, 7, [⟨[4], [1]⟩])] ∧
    (∀ p ∈ asked [argArr] argOps2, StillHolds (arrsAfter [argArr] argOps2) p) ∧
    ∃ s, (⟨st, [[]], [fun _ => 0], [argArr]⟩ : NState).run argOps2 = .ok s ∧ s.st ≠ st ∧ s.rq.flatten.length = 2 := by
  have h : ∀ enc share compact, okWith (fun st => decide (st.compact = compact) &&
      okWith (fun s => decide (s.st.ranks.map Rank.localSize ≠ st.ranks.map Rank.localSize ∧ s.rq.flatten.length = 2))
        ((⟨st, [[]], [fun _ => 0], [argArr]⟩ : NState).run argOps2)) (mxRun ⟨enc, share⟩ compact) = true := by
    decide +kernel
  obtain ⟨st, h1, h2⟩ := okWith_iff (h enc share compact)
  rw [Bool.and_eq_true, decide_eq_true_eq] at h2
  obtain ⟨s, h3, h4⟩ := okWith_iff h2.2
  rw [decide_eq_true_eq] at h4
  refine ⟨st, mx_reach h1, h2.1, ⟨_, rfl, rfl⟩, rfl, ?_, s, h3, fun e => h4.1 (by rw [e]), h4.2⟩
  intro p hp
  have : p = (0, 7, [⟨[4], [1]⟩]) := by simpa [show asked [argArr] argOps2 = [(0, 7, [⟨[4], [1]⟩])] from rfl] using hp
  subst this
  exact ⟨_, _, rfl, rfl, ⟨[⟨[1], [1]⟩], rfl⟩⟩

/-- The hypotheses of `C80_freed_violated`. -/
example (enc share compact : Bool) : ∃ st s1 st1, Reach ⟨enc, share⟩ st mxFile ∧ st.compact = compact ∧
    (⟨st, [[]], [fun _ => 0], [argArr]⟩ : NState).step (.readN 0 7 1 0 100) = .ok s1 ∧ st.fileFlush 1000 = .ok st1 := by
  have h : ∀ enc share compact, okWith (fun st => decide (st.compact = compact) && okWith (fun _ => true) (st.fileFlush 1000) &&
      okWith (fun _ => true) ((⟨st, [[]], [fun _ => 0], [argArr]⟩ : NState).step (.readN 0 7 1 0 100))) (mxRun ⟨enc, share⟩ compact) = true := by
    decide +kernel
  obtain ⟨st, h1, h2⟩ := okWith_iff (h enc share compact)
  rw [Bool.and_eq_true, Bool.and_eq_true, decide_eq_true_eq] at h2
  obtain ⟨st1, h3, _⟩ := okWith_iff h2.1.2
  obtain ⟨s1, h4, _⟩ := okWith_iff h2.2
  exact ⟨st, s1, st1, mx_reach h1, h2.1.1, h4, h3⟩

end Verif.Props
