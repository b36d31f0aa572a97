import Verif.Props.File
import Verif.Props.Index

/-
Concrete histories: cases that satisfy the hypotheses of the theorems of `Props/File.lean`, and
histories where the code violates C02, C18, C19 and C20.
-/

namespace Verif.Props

open Spec (AW AFile WriteOK MayWrite Fresh Small Indexable Served ReqsOK ReadResult Viewable Reach Returns
  ReturnsIfOk expected lastByte cellByte InBlk)

instance (st : FState) (n : Nat) : Decidable (Fresh st n) :=
  inferInstanceAs (Decidable (∀ e ∈ st.lds ++ st.mds, e.addr + e.size ≤ n))

instance (st : FState) : Decidable (Small st) :=
  inferInstanceAs (Decidable (∀ e ∈ st.lds ++ st.mds, e.addr + e.size < 2 ^ 63))

/-- The result of a computation satisfies a test. -/
def okWith {α : Type} (p : α → Bool) : Res α → Bool
  | .ok x => p x
  | _ => false

theorem okWith_iff {α : Type} {p : α → Bool} {x : Res α} (h : okWith p x = true) :
    ∃ y, x = .ok y ∧ p y = true := by
  cases x with
  | ok y => exact ⟨y, rfl, h⟩
  | err => simp [okWith] at h
  | ub => simp [okWith] at h

/-! ### A history with two processes -/

def fxD : DInfo := ⟨[4, 6], [some 4, some 6], 2⟩
/-- Process 0 writes two blocks, process 1 a column that crosses the first one. -/
def fxA : AW := ⟨0, fxD, [⟨[0, 0], [1, 2]⟩, ⟨[2, 1], [1, 2]⟩], [1, 2, 3, 4, 5, 6, 7, 8]⟩
def fxB : AW := ⟨0, fxD, [⟨[0, 1], [3, 1]⟩], [11, 12, 13, 14, 15, 16]⟩
/-- `fxA` is flushed, `fxB` is queued. -/
def fxFile : AFile := ((((AFile.create 2).addDset fxD).write 0 fxA).flush).write 1 fxB

def fxRun (cfg : Cfg) (compact : Bool) (mbuf : Option Nat) : Res FState := do
  let s ← ((FState.create cfg compact mbuf 2 (fun _ => 0)).addDset fxD).write 0 0 fxA.bs fxA.data
  let s ← s.fileFlush 1000
  s.write 1 0 fxB.bs fxB.data

def fxQ : RReq := ⟨0, fxD, [⟨[0, 0], [2, 3]⟩, ⟨[2, 0], [1, 6]⟩], 5000⟩

theorem fxA_ok (cfg : Cfg) : WriteOK cfg fxA where
  sized := Spec.AW.Exact.sized rfl
  ne := by decide
  short := by decide
  did := by decide
  sel := ⟨by decide, by decide, by
    intro b hb
    simp [fxA] at hb
    rcases hb with rfl | rfl <;> constructor <;> decide⟩
  sz := by decide
  enc := by
    intro _ _
    refine Spec.Encodable.expressible ⟨?_, ?_, Or.inl ?_, by decide⟩
    · intro b hb
      simp [fxA] at hb
      rcases hb with rfl | rfl <;> simp [Spec.inExtent_cons, Spec.inExtent_nil, fxA, fxD]
    · intro b hb
      simp [fxA] at hb
      rcases hb with rfl | rfl <;> (unfold Spec.NonEmpty; decide)
    · intro b hb
      simp [fxA] at hb
      rcases hb with rfl | rfl <;>
        simp [fxA, fxD, Spec.notFullWidth_cons, Spec.notFullWidth_zero_cons, Spec.notFullWidth_nil]
  cnt := by decide

theorem fxB_ok (cfg : Cfg) : WriteOK cfg fxB where
  sized := Spec.AW.Exact.sized rfl
  ne := by decide
  short := by decide
  did := by decide
  sel := ⟨by decide, by decide, by
    intro b hb
    simp [fxB] at hb
    subst hb
    constructor <;> decide⟩
  sz := by decide
  enc := by intro _ h; simp [fxB] at h
  cnt := by decide

theorem fx_run (enc share compact : Bool) :
    ∃ st st1, fxRun ⟨enc, share⟩ compact none = .ok st ∧ st.prepare true 2000 3000 = .ok st1 ∧
      Small st1 ∧ st.compact = compact ∧ st.mbuf = none ∧ Fresh st 2000 ∧ Fresh st 3000 := by
  have h : ∀ enc share compact, okWith (fun st => okWith (fun st1 => decide (Small st1 ∧
      st.compact = compact ∧ st.mbuf = none ∧ Fresh st 2000 ∧ Fresh st 3000)) (st.prepare true 2000 3000))
      (fxRun ⟨enc, share⟩ compact none) = true := by decide +kernel
  obtain ⟨st, h1, h2⟩ := okWith_iff (h enc share compact)
  obtain ⟨st1, h3, h4⟩ := okWith_iff h2
  rw [decide_eq_true_eq] at h4
  exact ⟨st, st1, h1, h3, h4⟩

theorem mayWrite_of {cfg : Cfg} {a : AFile} {r : Nat} {w : AW} (h : WriteOK cfg w)
    (hd : a.dsets[w.did]? = some (some w.d)) {p q : List AW} (hp : a.epoch[r]? = some p)
    (hq : a.queue[r]? = some q) (hn : (p ++ q).length < 1000)
    (hm : ∀ w' ∈ p ++ q, 1 < w.bs.length → 1 < w'.bs.length → (Spec.Confined w ↔ Spec.Confined w')) :
    MayWrite cfg a r w := by
  refine ⟨h, hd, ?_, ?_⟩
  · intro _ _ p' hp' q' hq'
    rw [hp] at hp'; rw [hq] at hq'
    simp only [Option.some.injEq] at hp' hq'
    subst hp' hq'
    exact hm
  · intro p' hp' q' hq'
    rw [hp] at hp'; rw [hq] at hq'
    simp only [Option.some.injEq] at hp' hq'
    subst hp' hq'
    omega

theorem fx_reach {cfg : Cfg} {compact : Bool} {mbuf : Option Nat} {st : FState}
    (h : fxRun cfg compact mbuf = .ok st) : Reach cfg st fxFile := by
  unfold fxRun at h
  obtain ⟨s1, h1, h⟩ := Res.bind_ok h
  obtain ⟨s2, h2, h⟩ := Res.bind_ok h
  have r0 : Reach cfg ((FState.create cfg compact mbuf 2 (fun _ => 0)).addDset fxD)
      ((AFile.create 2).addDset fxD) :=
    Reach.addDset fxD (Reach.create compact mbuf 2 _ (by decide) (by decide))
  have r1 := Reach.write 0 fxA r0 (mayWrite_of (fxA_ok cfg) rfl (p := []) (q := []) rfl rfl (by decide)
    (by simp)) h1
  have hf : Fresh s1 1000 := by
    obtain ⟨s1', e1, e2, e3, _⟩ := reach_write r0 (r := 0) (mayWrite_of (fxA_ok cfg) rfl (p := []) (q := []) rfl rfl
      (by decide) (by simp)) (by decide)
    rw [show s1' = s1 from by
      have := e1.symm.trans h1
      simpa using this] at e2 e3
    intro e he
    rw [e2, e3] at he
    simp [FState.create, FState.addDset] at he
  obtain ⟨s2', e1, _, _, _, _, _, r2⟩ := reach_flush r1 hf (by decide)
  rw [show s2' = s2 from by
    have := e1.symm.trans h2
    simpa using this] at r2
  exact Reach.write 1 fxB r2 (mayWrite_of (fxB_ok cfg) rfl (p := []) (q := []) rfl rfl (by decide)
    (by simp)) h

theorem fx_request (compact : Bool) : ReqsOK compact fxFile.dsets [fxQ] ∧ Viewable [fxQ] := by
  refine ⟨⟨?_, ?_, ?_, ?_, ?_, ?_, ?_, ?_⟩, ⟨?_, ?_, ?_⟩⟩
  · simp [fxFile, fxQ, AFile.write, AFile.flush, AFile.addDset, AFile.create]
  · decide
  · decide
  · decide
  · intro _
    simp only [List.mem_singleton, forall_eq]
    intro b hb n hn
    have : ∀ b ∈ fxQ.bs, ∀ n ∈ b.start, n < 2 ^ 31 := by decide
    exact this b hb n (List.mem_of_head? hn)
  · simp only [List.mem_singleton, forall_eq]
    simp only [fxQ, List.pairwise_cons, List.mem_singleton, forall_eq, List.not_mem_nil, false_implies,
      implies_true, List.Pairwise.nil, and_true]
    rintro x ⟨h1, h2⟩
    obtain ⟨l1, _⟩ := inBox_length h1
    match x, l1 with
    | [x, y], _ =>
      simp [InBlk, Spec.inBox] at h1 h2
      omega
  · exact List.pairwise_singleton _ _
  · exact List.pairwise_singleton _ _
  · simp only [List.mem_singleton, forall_eq]
    simp only [fxQ, List.pairwise_cons, List.mem_singleton, forall_eq, List.not_mem_nil, false_implies,
      implies_true, List.Pairwise.nil, and_true]
    right
    left
    simp [Spec.Stepped]
  · exact List.pairwise_singleton _ _
  · left
    simp [fxQ, fxD]

theorem fx_indexable (cfg : Cfg) (compact : Bool) : Indexable cfg compact fxFile.flush.metaflush := by
  have hs : fxFile.flush.metaflush.secs = [[fxA], [fxB]] := rfl
  refine ⟨?_, ?_, ?_, ?_⟩
  · intro _ p hp
    rw [hs] at hp
    simp at hp
    rcases hp with rfl | rfl <;> exact List.pairwise_singleton _ _
  · intro _ _ p hp
    rw [hs] at hp
    simp at hp
    rcases hp with rfl | rfl <;> exact List.pairwise_singleton _ _
  · intro _ _ p hp
    rw [hs] at hp
    simp at hp
    rcases hp with rfl | rfl <;> exact List.pairwise_singleton _ _
  · intro _ p hp w hw b hb n hn
    rw [hs] at hp
    have : ∀ p ∈ [[fxA], [fxB]], ∀ w ∈ p, ∀ b ∈ w.bs, ∀ n ∈ b.start, n < 2 ^ 31 := by decide
    exact this p hp w hw b hb n (List.mem_of_head? hn)

theorem fx_served (cfg : Cfg) (compact : Bool) : Served cfg compact fxFile.flush.metaflush [fxQ] :=
  (fx_indexable cfg compact).served (fx_request compact).1.wf

/-- The hypotheses of `C01_readback_partial` and `C02_readback_partial` (all configurations, both
indexes) hold for this history and request. -/
example (enc share compact : Bool) : ∃ st a st1, Reach ⟨enc, share⟩ st a ∧ a.done = [fxA] ∧
    a.queue = [[], [fxB]] ∧ st.compact = compact ∧ st.mbuf = none ∧ Fresh st 2000 ∧ Fresh st 3000 ∧
    2000 + Spec.queued a ≤ 3000 ∧ Served ⟨enc, share⟩ st.compact a.flush.metaflush [fxQ] ∧
    ReqsOK st.compact a.dsets [fxQ] ∧ Viewable [fxQ] ∧ 1 < a.queue.length ∧
    st.prepare true 2000 3000 = .ok st1 ∧ Small st1 := by
  obtain ⟨st, st1, h1, h2, h3, h4, h5, h6, h7⟩ := fx_run enc share compact
  exact ⟨st, fxFile, st1, fx_reach h1, rfl, rfl, h4, h5, h6, h7, by decide, fx_served _ _,
    (fx_request _).1, (fx_request st.compact).2, by decide, h2, h3⟩

/-- What the theorem says about the cell `(0, 1)`, written by both processes: the second write wins. -/
example (enc share compact : Bool) (mem : Mem) : ∃ st st1, fxRun ⟨enc, share⟩ compact none = .ok st ∧
    st.prepare true 2000 3000 = .ok st1 ∧ ∃ n, ∀ fuel ≥ n, ∀ out, st1.reads fuel 0 (fun _ => none) [fxQ] mem out →
      ∃ mem', out = .ok mem' ∧ mem' 5000 = 1 ∧ mem' 5001 = 2 ∧ mem' 5002 = 11 ∧ mem' 5003 = 12 := by
  obtain ⟨st, st1, h1, h2, h3, h4, h5, h6, h7⟩ := fx_run enc share compact
  refine ⟨st, st1, h1, h2, ?_⟩
  obtain ⟨st2, e1, e2⟩ := C02_readback_partial _ (fx_reach h1) (.inl rfl) h6 h7 (by decide) (fx_served _ _)
    (fx_request _).1 (fx_request st.compact).2 (r := 0) (by decide) (Or.inl h5)
  have : st2 = st1 := by
    have := e1.symm.trans h2
    simpa using this
  subst this
  obtain ⟨n, hn⟩ := e2 h3
  refine ⟨n, fun fuel hf out ho => ?_⟩
  obtain ⟨mem', rfl, hv⟩ := (hn fuel hf (fun _ => none) mem).2 out ho
  refine ⟨mem', rfl, ?_⟩
  have key : ∀ c k, InBlk fxQ.bs[0] c → k < 2 → mem' (Spec.addrOf fxQ 0 fxQ.bs[0] c k) =
      expected [fxA, fxB] (fun _ => none) 0 c k (mem (Spec.addrOf fxQ 0 fxQ.bs[0] c k)) :=
    fun c k hc hk => hv.val fxQ (by simp) 0 (by decide) c hc k hk
  exact ⟨key [0, 0] 0 (by decide) (by decide), key [0, 0] 1 (by decide) (by decide),
    key [0, 1] 0 (by decide) (by decide), key [0, 1] 1 (by decide) (by decide)⟩

/-! ### C02 and C18 are violated by the default configuration -/

def isUb {α : Type} : Res α → Bool
  | .ub => true
  | _ => false

theorem isUb_iff {α : Type} {x : Res α} (h : isUb x = true) : x = .ub := by
  cases x <;> simp_all [isUb]

theorem search_fuel {st : FState} (h : st.mbuf = none) (fuel fuel' r : Nat) (qs : List RReq) :
    st.search fuel r qs = st.search fuel' r qs := by
  unfold FState.search
  rw [h]

def vxRun : Res FState := do
  let s ← ((FState.create ⟨true, true⟩ true none 1 (fun _ => 0)).addDset wR.d).write 0 0 wR.bs wR.data
  s.write 0 0 wR.bs wR.data

def vxFile : AFile := (((AFile.create 1).addDset wR.d).write 0 wR).write 0 wR

theorem wR_ok (cfg : Cfg) : WriteOK cfg wR where
  sized := Spec.AW.Exact.sized rfl
  ne := by decide
  short := by decide
  did := by decide
  sel := ⟨by decide, by decide, by
    intro b hb
    simp [wR] at hb
    subst hb
    constructor <;> decide⟩
  sz := by decide
  enc := by intro _ h; simp [wR] at h
  cnt := by decide

theorem vx_reach {st : FState} (h : vxRun = .ok st) : Reach ⟨true, true⟩ st vxFile := by
  unfold vxRun at h
  obtain ⟨s1, h1, h⟩ := Res.bind_ok h
  have r0 : Reach ⟨true, true⟩ ((FState.create ⟨true, true⟩ true none 1 (fun _ => 0)).addDset wR.d)
      ((AFile.create 1).addDset wR.d) :=
    Reach.addDset wR.d (Reach.create true none 1 _ (by decide) (by decide))
  have r1 := Reach.write 0 wR r0 (mayWrite_of (wR_ok _) rfl (p := []) (q := []) rfl rfl (by decide)
    (by simp)) h1
  exact Reach.write 0 wR r1 (mayWrite_of (wR_ok _) rfl (p := []) (q := [wR]) rfl rfl (by decide)
    (by simp [wR])) h

/-- **C02 and C18 are violated by the default configuration** (sharing, selection encoding, compact
index). One process writes record 2 of a dataset twice and reads the dataset: the search leaves the
coordinate array of the index entry of the second write. -/
theorem C02_readback_violated :
    ∃ st st1, Reach ⟨true, true⟩ st vxFile ∧ vxFile.done ++ vxFile.queue.flatten = [wR, wR] ∧
      st.compact = true ∧ st.mbuf = none ∧ Fresh st 1000 ∧ Fresh st 2000 ∧
      ReqsOK st.compact vxFile.dsets [wRreq] ∧ Viewable [wRreq] ∧
      st.prepare fileMode 1000 2000 = .ok st1 ∧ Small st1 ∧
      ∀ fuel fill mem out, st1.reads fuel 0 fill [wRreq] mem out → out = .ub := by
  have h : okWith (fun st => okWith (fun st1 => decide (Small st1 ∧ st1.mbuf = none ∧ st.compact = true ∧
      st.mbuf = none ∧ Fresh st 1000 ∧ Fresh st 2000) && isUb (st1.search 0 0 [wRreq]))
      (st.prepare fileMode 1000 2000)) vxRun = true := by decide +kernel
  obtain ⟨st, h1, h2⟩ := okWith_iff h
  obtain ⟨st1, h3, h4⟩ := okWith_iff h2
  rw [Bool.and_eq_true, decide_eq_true_eq] at h4
  obtain ⟨⟨a1, a2, a3, a4, a5, a6⟩, a7⟩ := h4
  have hreq : ReqsOK st.compact vxFile.dsets [wRreq] := by
    refine ⟨?_, ?_, ?_, ?_, ?_, ?_, ?_, ?_⟩
    · simp [vxFile, wRreq, AFile.write, AFile.addDset, AFile.create]
    · decide
    · decide
    · decide
    · intro _
      simp only [List.mem_singleton, forall_eq]
      intro b hb n hn
      have : ∀ b ∈ wRreq.bs, ∀ n ∈ b.start, n < 2 ^ 31 := by decide
      exact this b hb n (List.mem_of_head? hn)
    · simp only [List.mem_singleton, forall_eq]
      exact List.pairwise_singleton _ _
    · exact List.pairwise_singleton _ _
    · exact List.pairwise_singleton _ _
  refine ⟨st, st1, vx_reach h1, rfl, a3, a4, a5, a6, hreq, viewable_one wRreq _ rfl, h3, a1, ?_⟩
  intro fuel fill mem out ho
  have hs : st1.search fuel 0 [wRreq] = .ub := by rw [search_fuel a2 fuel 0]; exact isUb_iff a7
  rcases ho with ⟨raw, st', hs', e1, _⟩ | ⟨e1, _⟩ | ⟨_, e2⟩
  · rw [hs] at e1; simp at e1
  · rw [hs] at e1; simp at e1
  · exact e2

/-! ### C19 is violated -/

def ixD : DInfo := ⟨[2], [some 2], 1⟩
def ixA : AW := ⟨0, ixD, [⟨[0], [1]⟩], [1]⟩
def ixB : AW := ⟨0, ixD, [⟨[1], [1]⟩], [2]⟩
def ixQ : RReq := ⟨0, ixD, [⟨[1], [1]⟩], 100⟩

/-- Two processes; process 0 writes element 0, all flush, process 1 writes element 1. -/
def ixRun (cfg : Cfg) (compact : Bool) : Res FState := do
  let s ← ((FState.create cfg compact none 2 (fun _ => 0)).addDset ixD).write 0 0 ixA.bs ixA.data
  let s ← s.fileFlush 1000
  s.write 1 0 ixB.bs ixB.data

def ixFile : AFile := ((((AFile.create 2).addDset ixD).write 0 ixA).flush).write 1 ixB

theorem ix_ok (cfg : Cfg) : WriteOK cfg ixA ∧ WriteOK cfg ixB := by
  constructor <;>
  · refine ⟨Spec.AW.Exact.sized rfl, by decide, by decide, by decide, ⟨by decide, by decide, ?_⟩, by decide, ?_, by decide⟩
    · intro b hb
      simp [ixA, ixB] at hb
      subst hb
      constructor <;> decide
    · intro _ h; simp [ixA, ixB] at h

theorem ix_reach {cfg : Cfg} {compact : Bool} {st : FState} (h : ixRun cfg compact = .ok st) :
    Reach cfg st ixFile := by
  unfold ixRun at h
  obtain ⟨s1, h1, h⟩ := Res.bind_ok h
  obtain ⟨s2, h2, h⟩ := Res.bind_ok h
  have r0 : Reach cfg ((FState.create cfg compact none 2 (fun _ => 0)).addDset ixD)
      ((AFile.create 2).addDset ixD) :=
    Reach.addDset ixD (Reach.create compact none 2 _ (by decide) (by decide))
  have hm : MayWrite cfg ((AFile.create 2).addDset ixD) 0 ixA :=
    mayWrite_of (ix_ok cfg).1 rfl (p := []) (q := []) rfl rfl (by decide) (by simp)
  have r1 := Reach.write 0 ixA r0 hm h1
  have hf : Fresh s1 1000 := by
    obtain ⟨s1', e1, e2, e3, _⟩ := reach_write r0 hm (by decide)
    rw [show s1' = s1 from by
      have := e1.symm.trans h1
      simpa using this] at e2 e3
    intro e he
    rw [e2, e3] at he
    simp [FState.create, FState.addDset] at he
  obtain ⟨s2', e1, _, _, _, _, _, r2⟩ := reach_flush r1 hf (by decide)
  rw [show s2' = s2 from by
    have := e1.symm.trans h2
    simpa using this] at r2
  exact Reach.write 1 ixB r2 (mayWrite_of (ix_ok cfg).2 rfl (p := []) (q := []) rfl rfl (by decide)
    (by simp)) h

/-- The value at an address after the read of one block, if the search finds one block. -/
def readOne (st : FState) (r : Nat) (qs : List RReq) (mem : Mem) (x : Nat) : Option Byte :=
  match st.search 0 r qs with
  | .ok ([h], _) => match readHits st.disk [h] mem with
    | .ok mem' => some (mem' x)
    | _ => none
  | _ => none

theorem prefill_none (qs : List RReq) (mem : Mem) : prefill (fun _ => none) qs mem = mem := by
  unfold prefill
  induction qs with
  | nil => rfl
  | cons q qs ih => rw [List.foldl_cons]; exact ih

theorem readOne_spec {st : FState} {r : Nat} {qs : List RReq} {mem : Mem} {x : Nat} {v : Byte}
    (h : readOne st r qs mem x = some v) (hb : st.mbuf = none) {fuel : Nat} {out : Res Mem}
    (ho : st.reads fuel r (fun _ => none) qs mem out) : ∃ mem', out = .ok mem' ∧ mem' x = v := by
  unfold readOne at h
  rw [search_fuel hb 0 fuel] at h
  rcases ho with ⟨raw, st', hs, e1, e2, e3⟩ | ⟨e1, _⟩ | ⟨e1, _⟩
  · rw [e1] at h
    rw [prefill_none] at e3
    match raw, h, e2 with
    | [a], h, e2 =>
      have : hs = [a] := List.perm_singleton.mp e2.1
      rw [this] at e3
      simp only at h
      rw [← e3] at h
      cases out with
      | ok mem' => exact ⟨mem', rfl, by simpa using h⟩
      | err => simp at h
      | ub => simp at h
    | [], h, _ => simp at h
    | _ :: _ :: _, h, _ => simp at h
  · rw [e1] at h; simp at h
  · rw [e1] at h; simp at h

/-- **C19 is violated** (any configuration, either index). All processes read independently (the
transfer mode the code looks at, `fp->dxplid`, is the one of the file creation, by default independent):
this writes the metadata of the queued write of process 1 and drops the write. Element 1 then reads as
byte 0 of the file, now and after any collective read. -/
theorem C19_independent_violated (enc share compact : Bool) :
    ∃ st st1 st2, Reach ⟨enc, share⟩ st ixFile ∧ ixFile.queue = [[], [ixB]] ∧
      Fresh st 2000 ∧ Fresh st 3000 ∧ 2000 + Spec.queued ixFile ≤ 3000 ∧
      st.prepare false 2000 3000 = .ok st1 ∧ Small st1 ∧ Fresh st1 4000 ∧ Fresh st1 5000 ∧
      st1.prepare fileMode 4000 5000 = .ok st2 ∧ Small st2 ∧
      lastByte (ixFile.done ++ ixFile.queue.flatten) 0 [1] 0 = some 2 ∧
      ∀ fuel r, r < 2 → ∀ out, st2.reads fuel r (fun _ => none) [ixQ] (fun _ => 9) out →
        ∃ mem', out = .ok mem' ∧ mem' (Spec.addrOf ixQ 0 ixQ.bs[0] [1] 0) = 0 := by
  have h : ∀ enc share compact, okWith (fun st => okWith (fun st1 => okWith (fun st2 =>
      decide (Small st1 ∧ Small st2 ∧ st2.mbuf = none ∧ Fresh st 2000 ∧ Fresh st 3000 ∧
        Fresh st1 4000 ∧ Fresh st1 5000 ∧ readOne st2 0 [ixQ] (fun _ => 9) 100 = some 0 ∧
        readOne st2 1 [ixQ] (fun _ => 9) 100 = some 0))
      (st1.prepare fileMode 4000 5000))
      (st.prepare false 2000 3000)) (ixRun ⟨enc, share⟩ compact) = true := by decide +kernel
  obtain ⟨st, h1, h2⟩ := okWith_iff (h enc share compact)
  obtain ⟨st1, h3, h4⟩ := okWith_iff h2
  obtain ⟨st2, h5, h6⟩ := okWith_iff h4
  rw [decide_eq_true_eq] at h6
  obtain ⟨a1, a2, a3, a4, a5, a6, a7, a8, a9⟩ := h6
  refine ⟨st, st1, st2, ix_reach h1, rfl, a4, a5, by decide, h3, a1, a6, a7, h5, a2, by decide, ?_⟩
  intro fuel r hr out ho
  match r, hr with
  | 0, _ => exact readOne_spec a8 a3 ho
  | 1, _ => exact readOne_spec a9 a3 ho

/-! ### C20 is violated -/

/-- **C20 is violated.** One process creates a file, writes, flushes successfully and dies. After opening
the file again, the buffer of a read is left as it was. -/
theorem C20_crash_violated :
    ∃ st st1, Reach ⟨true, true⟩ st vxFile ∧ Fresh st 1000 ∧ st.fileFlush 1000 = .ok st1 ∧ Small st1 ∧
      lastByte (vxFile.done ++ vxFile.queue.flatten) 0 [2, 0] 0 = some 1 ∧
      ∀ np compact gone r, r < np → ∀ fuel out,
        (st1.reopen np compact none gone).reads fuel r (fun _ => none) [wRreq] (fun _ => 9) out →
        out = .ok (fun _ => 9) := by
  have h : okWith (fun st => okWith (fun st1 => decide (Small st1 ∧ st1.saved = 0 ∧ Fresh st 1000))
      (st.fileFlush 1000)) vxRun = true := by decide +kernel
  obtain ⟨st, h1, h2⟩ := okWith_iff h
  obtain ⟨st1, h3, h4⟩ := okWith_iff h2
  rw [decide_eq_true_eq] at h4
  refine ⟨st, st1, vx_reach h1, h4.2.2, h3, h4.1, by decide, ?_⟩
  intro np compact gone r hr fuel out ho
  rw [C20_crash_lost st1 h4.2.1 np compact gone hr fuel _ _ _ ho, prefill_none]

end Verif.Props
