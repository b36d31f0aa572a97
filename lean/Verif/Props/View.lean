import Verif.Props.FlushEx
import Verif.Lemmas.Eval
import Mathlib.Data.List.Sort

/-
C44 (file views) and C16 (blocks read together).
-/

namespace Verif.Props

open Spec (AW AFile WriteOK MayWrite Fresh Small Indexable Served ReqsOK ReadResult Viewable Reach Returns
  ReturnsIfOk expected lastByte cellByte InBlk Displacements)

/-! ### C44 -/

/-- A successful read had a valid file view. -/
theorem readHits_view {disk mem mem' : Mem} {hs : List Hit} (h : readHits disk hs mem = .ok mem')
    {g : List Seg × List Copy} (hg : genSegs (groups hs) = .ok g) :
    viewOK (g.1.flatMap Seg.pairs) = true := by
  unfold readHits at h
  rw [hg] at h
  simp only [Res.ok_bind] at h
  obtain ⟨m, h1, _⟩ := Res.bind_ok h
  unfold mpiRead at h1
  by_contra hc
  simp only [hc] at h1
  simp at h1

/-- **C44, partial: regular grids, disjoint rows, or ends in order.** For every log and every collective
read of blocks that are pairwise `Comparable` or have `Ends` in order, the read hands MPI a file view whose
displacements are non-negative and do not decrease. -/
theorem C44_view_partial (cfg : Cfg) {st : FState} {a : AFile} (h : Reach cfg st a)
    {coll : Bool} (hcoll : Spec.SeesQueue coll a) {doff mdoff : Nat} (hf : Fresh st doff) (hf' : Fresh st mdoff)
    (hd : doff + Spec.queued a ≤ mdoff)
    {qs : List RReq} (hi : Served cfg st.compact a.flush.metaflush qs)
     (hq : Spec.ReqsWF st.compact a.dsets qs) (hv : Viewable qs) {r : Nat}
    (hr : r < a.queue.length) (hm : st.mbuf = none ∨ a.done ++ a.queue.flatten ≠ []) :
    ∃ st1, st.prepare coll doff mdoff = .ok st1 ∧ (Small st1 → ∃ n, ∀ fuel ≥ n,
      (∃ ds, Displacements st1 fuel r qs ds) ∧
      ∀ ds, Displacements st1 fuel r qs ds → ds.Pairwise (· ≤ ·) ∧ ∀ x ∈ ds, 0 ≤ x) := by
  obtain ⟨st1, h1, h2⟩ := reach_collective_repeated h hcoll hf hf' hd hi hq hr hm
  refine ⟨st1, h1, fun hsm => ?_⟩
  obtain ⟨n, hn⟩ := (h2 hsm).2.1 hv
  refine ⟨n, fun fuel hfu => ?_⟩
  obtain ⟨⟨mem', hex⟩, hall⟩ := hn fuel hfu (fun _ => none) (fun _ => 0)
  constructor
  · rcases hex with ⟨raw, st', hs, e1, e2, e3⟩ | ⟨_, e2⟩ | ⟨_, e2⟩
    · obtain ⟨g, hg, _⟩ := Res.bind_ok e3.symm
      exact ⟨_, raw, st', hs, g, e1, e2, hg, rfl⟩
    · simp at e2
    · simp at e2
  · rintro ds ⟨raw, st', hs, g, e1, e2, e3, rfl⟩
    obtain ⟨mem1, m1⟩ := hall _ (Or.inl ⟨raw, st', hs, e1, e2, rfl⟩)
    have := readHits_view m1 e3
    unfold viewOK at this
    rw [Bool.and_eq_true, decide_eq_true_eq, List.all_eq_true] at this
    refine ⟨this.1, ?_⟩
    intro x hx
    obtain ⟨p, hp, rfl⟩ := List.mem_map.mp hx
    simpa using this.2 p hp

/-- The hypotheses hold for the history and request of `Props/FileEx.lean`. -/
example (enc share compact : Bool) : ∃ st a st1, Reach ⟨enc, share⟩ st a ∧ a.done = [fxA] ∧
    a.queue = [[], [fxB]] ∧ st.compact = compact ∧ st.mbuf = none ∧ Fresh st 2000 ∧ Fresh st 3000 ∧
    2000 + Spec.queued a ≤ 3000 ∧ Served ⟨enc, share⟩ st.compact a.flush.metaflush [fxQ] ∧
    Spec.ReqsWF st.compact a.dsets [fxQ] ∧ Viewable [fxQ] ∧ 1 < a.queue.length ∧
    st.prepare true 2000 3000 = .ok st1 ∧ Small st1 := by
  obtain ⟨st, st1, h1, h2, h3, h4, h5, h6, h7⟩ := fx_run enc share compact
  exact ⟨st, fxFile, st1, fx_reach h1, rfl, rfl, h4, h5, h6, h7, by decide, fx_served _ _,
    (fx_request _).1.wf, (fx_request st.compact).2, by decide, h2, h3⟩

/-- A list without equal keys that is already sorted is the only result of sorting. -/
theorem sorted_unique {raw hs : List Hit} (h : SortedHits raw hs)
    (hr : raw.Pairwise (fun a b => hitLt a b = true ∧ hitLt b a = false)) : hs = raw := by
  apply List.Perm.eq_of_pairwise (le := fun a b => hitLt b a = false) ?_ h.2
    (hr.imp (fun h => h.2)) h.1
  intro a b ha hb h1 h2
  have ha' := h.1.mem_iff.mp ha
  by_contra hne
  have : ∀ {l : List Hit}, l.Pairwise (fun a b => hitLt a b = true ∧ hitLt b a = false) → a ∈ l → b ∈ l →
      hitLt a b = true ∨ hitLt b a = true := by
    intro l hl
    induction hl with
    | nil => simp
    | cons hx _ ih =>
      intro ha hb
      rcases List.mem_cons.mp ha with rfl | ha2
      · rcases List.mem_cons.mp hb with rfl | hb
        · exact absurd rfl hne
        · exact Or.inl (hx b hb).1
      · rcases List.mem_cons.mp hb with rfl | hb
        · exact Or.inr (hx _ (by assumption)).1
        · exact ih ha2 hb
  rcases this hr ha' hb with h | h
  · rw [h2] at h; simp at h
  · rw [h1] at h; simp at h

/-- One process, one write of one block to one dataset, nothing flushed. -/
def oneRun (cfg : Cfg) (compact : Bool) (w : AW) : Res FState :=
  ((FState.create cfg compact none 1 (fun _ => 0)).addDset w.d).write 0 0 w.bs w.data

def oneFile (w : AW) : AFile := ((AFile.create 1).addDset w.d).write 0 w

theorem one_reach {cfg : Cfg} {compact : Bool} {w : AW} (hw : WriteOK cfg w) (hd : w.did = 0) {st : FState}
    (h : oneRun cfg compact w = .ok st) : Reach cfg st (oneFile w) := by
  have r0 : Reach cfg ((FState.create cfg compact none 1 (fun _ => 0)).addDset w.d)
      ((AFile.create 1).addDset w.d) :=
    Reach.addDset w.d (Reach.create compact none 1 _ (by decide) (by decide))
  have h : ((FState.create cfg compact none 1 (fun _ => 0)).addDset w.d).write 0 w.did w.bs w.data = .ok st := by
    rw [hd]; exact h
  refine Reach.write 0 w r0 (mayWrite_of hw ?_ (p := []) (q := []) rfl rfl (by decide) (by simp)) h
  rw [hd]
  rfl

theorem writeOK_one {cfg : Cfg} {w : AW} (h1 : w.Exact) (h2 : w.data ≠ []) (h3 : w.data.length < 2 ^ 31)
    (h4 : w.did < 2 ^ 31) (h5 : Spec.SelOK w.d w.bs)
    (h6 : 48 + 8 * w.d.ndim + 16 * (w.d.ndim * w.bs.length) < 2 ^ 31) (h7 : w.bs.length = 1)
    (h8 : ∀ b ∈ w.bs, ∀ n ∈ b.count, n < 2 ^ 31) : WriteOK cfg w :=
  ⟨h1.sized, h2, h3, h4, h5, h6, fun _ h => by omega, h8⟩

/-- A 5 x 6 dataset of bytes, written at once. -/
def kxD : DInfo := ⟨[5, 6], [some 5, some 6], 1⟩
def kxW : AW := ⟨0, kxD, [⟨[0, 0], [5, 6]⟩], (List.range 30).map UInt8.ofNat⟩
/-- Three disjoint blocks: two columns, half a row, and a cell below. -/
def kxQ : RReq := ⟨0, kxD, [⟨[0, 0], [5, 2]⟩, ⟨[0, 3], [1, 3]⟩, ⟨[3, 3], [1, 1]⟩], 100⟩

theorem kx_ok (cfg : Cfg) : WriteOK cfg kxW := by
  refine writeOK_one rfl (by decide) (by decide) (by decide) ⟨by decide, by decide, ?_⟩ (by decide) rfl
    (by decide)
  intro b hb
  simp [kxW] at hb
  subst hb
  constructor <;> decide

def sortedB (raw : List Hit) : Bool :=
  decide (raw.Pairwise (fun a b => hitLt a b = true ∧ hitLt b a = false))

theorem kx_request (compact : Bool) : ReqsOK compact (oneFile kxW).dsets [kxQ] := by
  refine ⟨?_, ?_, ?_, ?_, ?_, ?_, ?_, ?_⟩
  · simp [oneFile, kxW, kxQ, AFile.write, AFile.addDset, AFile.create]
  · decide
  · decide
  · decide
  · intro _
    simp only [List.mem_singleton, forall_eq]
    intro b hb n hn
    have : ∀ b ∈ kxQ.bs, ∀ n ∈ b.start, n < 2 ^ 31 := by decide
    exact this b hb n (List.mem_of_head? hn)
  · simp only [List.mem_singleton, forall_eq]
    simp only [kxQ, List.pairwise_cons, List.mem_cons, List.not_mem_nil, or_false, forall_eq_or_imp,
      forall_eq, false_implies, implies_true, List.Pairwise.nil, and_true]
    refine ⟨⟨?_, ?_⟩, ?_⟩ <;>
    · rintro x ⟨h1, h2⟩
      obtain ⟨l1, _⟩ := inBox_length h1
      match x, l1 with
      | [x, y], _ =>
        simp [InBlk, Spec.inBox] at h1 h2
        omega
  · exact List.pairwise_singleton _ _
  · exact List.pairwise_singleton _ _

/-- **C44 is violated**, in every configuration and with both indexes. The dataset has been written by a
single write; the read of three disjoint blocks has a file view that goes back from displacement `24` of the data
(row 4) to `21` (row 3), and the read is undefined. `operator>` takes the second block for the one that ends
last, so the third one is put in a group of its own. -/
theorem C44_view_violated (enc share compact : Bool) :
    ∃ st st1, Reach ⟨enc, share⟩ st (oneFile kxW) ∧ (oneFile kxW).queue = [[kxW]] ∧ st.compact = compact ∧
      st.mbuf = none ∧ Fresh st 1000 ∧ Fresh st 2000 ∧ ReqsOK st.compact (oneFile kxW).dsets [kxQ] ∧
      st.prepare fileMode 1000 2000 = .ok st1 ∧ Small st1 ∧ ∀ fuel,
      (∃ ds, Displacements st1 fuel 0 [kxQ] ds) ∧
      (∀ ds, Displacements st1 fuel 0 [kxQ] ds → [1024, 1025, 1021].Sublist ds) ∧
      ∀ fill mem out, st1.reads fuel 0 fill [kxQ] mem out → out = .ub := by
  have h : ∀ enc share compact, okWith (fun st => okWith (fun st1 => decide (Small st1 ∧ st1.mbuf = none ∧
      st.compact = compact ∧ st.mbuf = none ∧ Fresh st 1000 ∧ Fresh st 2000) &&
      okWith (fun raw => sortedB raw.1 && okWith (fun g =>
        decide ([1024, 1025, 1021].Sublist ((g.1.flatMap Seg.pairs).map Prod.fst)) &&
        !viewOK (g.1.flatMap Seg.pairs)) (genSegsF (groups raw.1))) (st1.search 0 0 [kxQ]))
      (st.prepare fileMode 1000 2000)) (oneRun ⟨enc, share⟩ compact kxW) = true := by decide +kernel
  obtain ⟨st, h1, h2⟩ := okWith_iff (h enc share compact)
  obtain ⟨st1, h3, h4⟩ := okWith_iff h2
  rw [Bool.and_eq_true, decide_eq_true_eq] at h4
  obtain ⟨⟨a1, a2, a3, a4, a5, a6⟩, a7⟩ := h4
  obtain ⟨⟨raw, st'⟩, s1, s2⟩ := okWith_iff a7
  rw [Bool.and_eq_true] at s2
  obtain ⟨s2, s3⟩ := s2
  obtain ⟨g, g1, g2⟩ := okWith_iff s3
  rw [Bool.and_eq_true, decide_eq_true_eq, Bool.not_eq_true'] at g2
  replace g1 := genSegsF_eq g1
  have huniq : ∀ hs, SortedHits raw hs → hs = raw :=
    fun hs hh => sorted_unique hh (by simpa [sortedB] using s2)
  have hsearch : ∀ fuel, st1.search fuel 0 [kxQ] = .ok (raw, st') := fun fuel => by
    rw [search_fuel a2 fuel 0]; exact s1
  refine ⟨st, st1, one_reach (kx_ok _) rfl h1, rfl, a3, a4, a5, a6, kx_request _, h3, a1, fun fuel =>
    ⟨?_, ?_, ?_⟩⟩
  · obtain ⟨hs, hh⟩ := sortedHits_exists raw
    exact ⟨_, raw, st', hs, g, hsearch fuel, hh, by rw [huniq hs hh]; exact g1, rfl⟩
  · rintro ds ⟨raw', st'', hs, g', e1, e2, e3, rfl⟩
    rw [hsearch] at e1
    simp only [Res.ok.injEq, Prod.mk.injEq] at e1
    obtain ⟨rfl, rfl⟩ := e1
    rw [huniq hs e2, g1] at e3
    simp only [Res.ok.injEq] at e3
    subst e3
    exact g2.1
  · intro fill mem out ho
    rcases ho with ⟨raw', st'', hs, e1, e2, e3⟩ | ⟨e1, _⟩ | ⟨_, e2⟩
    · rw [hsearch] at e1
      simp only [Res.ok.injEq, Prod.mk.injEq] at e1
      obtain ⟨rfl, rfl⟩ := e1
      rw [e3, huniq hs e2]
      unfold readHits
      rw [g1]
      simp only [Res.ok_bind]
      unfold mpiRead
      simp only [g2.2]
      rfl
    · rw [hsearch] at e1; simp at e1
    · exact e2

/-! ### C16 -/

/-- The request for block `i` of `q` only, into the same place. -/
def alone (q : RReq) (i : Nat) (b : Blk) : RReq :=
  { q with bs := [b], xbuf := q.xbuf + Spec.dataOffset q.d.esize q.bs i }

theorem alone_addr (q : RReq) (i : Nat) (b : Blk) (c : List Nat) (k : Nat) :
    Spec.addrOf (alone q i b) 0 b c k = Spec.addrOf q i b c k := by
  simp [Spec.addrOf, alone, Spec.dataOffset]

theorem alone_ok {compact : Bool} {dsets : DSets} {qs : List RReq} (h : ReqsOK compact dsets qs) {q : RReq}
    (hq : q ∈ qs) {i : Nat} (hi : i < q.bs.length) : ReqsOK compact dsets [alone q i q.bs[i]] := by
  have hm : q.bs[i] ∈ q.bs := List.getElem_mem hi
  refine ⟨?_, ?_, ?_, ?_, ?_, ?_, List.pairwise_singleton _ _, List.pairwise_singleton _ _⟩ <;>
    simp only [List.mem_singleton, forall_eq, alone]
  · exact h.dset q hq
  · exact h.es q hq
  · exact h.shape q hq _ hm
  · exact h.cnt q hq _ hm
  · exact fun hc => h.head hc q hq _ hm
  · exact List.pairwise_singleton _ _

theorem served_alone {cfg : Cfg} {compact : Bool} {a : AFile} {qs : List RReq} (h : Served cfg compact a qs) {q : RReq}
    (hq : q ∈ qs) {i : Nat} (hi : i < q.bs.length) : Served cfg compact a [alone q i q.bs[i]] :=
  h.sub (by
    simp only [List.mem_singleton, forall_eq]
    exact fun _ => ⟨q, hq, rfl, fun e => by rw [e] at hi; simp at hi⟩)

/-- **C16, partial: disjoint blocks.** Blocks of one or several requests read together receive what each
would receive if it were read alone from the same state of the file. -/
theorem C16_together_partial (cfg : Cfg) {st : FState} {a : AFile} (h : Reach cfg st a)
    {coll : Bool} (hcoll : Spec.SeesQueue coll a) {doff mdoff : Nat} (hf : Fresh st doff) (hf' : Fresh st mdoff)
    (hd : doff + Spec.queued a ≤ mdoff)
    {qs : List RReq} (hi : Served cfg st.compact a.flush.metaflush qs)
     (hq : ReqsOK st.compact a.dsets qs) (hv : Viewable qs) {r : Nat}
    (hr : r < a.queue.length) (hm : st.mbuf = none ∨ a.done ++ a.queue.flatten ≠ []) :
    ∃ st1, st.prepare coll doff mdoff = .ok st1 ∧ (Small st1 →
      ∀ q ∈ qs, ∀ i, ∀ hi : i < q.bs.length, ∃ n, ∀ fuel ≥ n, ∀ fill mem out out',
        st1.reads fuel r fill qs mem out → st1.reads fuel r fill [alone q i q.bs[i]] mem out' →
        ∃ m m', out = .ok m ∧ out' = .ok m' ∧ ∀ c, InBlk q.bs[i] c → ∀ k < q.d.esize,
          m (Spec.addrOf q i q.bs[i] c k) = m' (Spec.addrOf q i q.bs[i] c k)) := by
  obtain ⟨st1, h1, h2⟩ := C02_readback_partial cfg h hcoll hf hf' hd hi hq hv hr hm
  refine ⟨st1, h1, fun hsm q hqm i hi' => ?_⟩
  obtain ⟨n, hn⟩ := h2 hsm
  obtain ⟨st2, g1, g2⟩ := C02_readback_partial cfg h hcoll hf hf' hd (served_alone hi hqm hi') (alone_ok hq hqm hi')
    (viewable_one _ _ rfl) hr hm
  have : st2 = st1 := by
    have := g1.symm.trans h1
    simpa using this
  subst this
  obtain ⟨n', hn'⟩ := g2 hsm
  refine ⟨max n n', fun fuel hfu fill mem out out' ho ho' => ?_⟩
  obtain ⟨m, e1, e2⟩ := (hn fuel (by omega) fill mem).2 out ho
  obtain ⟨m', e3, e4⟩ := (hn' fuel (by omega) fill mem).2 out' ho'
  refine ⟨m, m', e1, e3, fun c hc k hk => ?_⟩
  rw [e2.val q hqm i hi' c hc k hk]
  have := e4.val (alone q i q.bs[i]) (by simp) 0 (by simp [alone]) c hc k hk
  have ha := alone_addr q i q.bs[i] c k
  simp only [alone, List.getElem_cons_zero] at this ha
  rw [ha] at this
  exact this.symm

/-- Ten bytes, written at once, then read as the blocks `0..9` and `3..4`. -/
def nxD : DInfo := ⟨[10], [some 10], 1⟩
def nxW : AW := ⟨0, nxD, [⟨[0], [10]⟩], (List.range 10).map UInt8.ofNat⟩
def nxQ : RReq := ⟨0, nxD, [⟨[0], [10]⟩, ⟨[3], [2]⟩], 100⟩

theorem nx_ok (cfg : Cfg) : WriteOK cfg nxW := by
  refine writeOK_one rfl (by decide) (by decide) (by decide) ⟨by decide, by decide, ?_⟩ (by decide) rfl
    (by decide)
  intro b hb
  simp [nxW] at hb
  subst hb
  constructor <;> decide

/-- All results of a read whose search results have distinct sort keys. -/
theorem reads_unique {st : FState} {fuel r : Nat} {fill : Nat → Option (List Byte)} {qs : List RReq} {mem : Mem}
    {out : Res Mem} {raw : List Hit} {st' : FState} (hs : st.search fuel r qs = .ok (raw, st'))
    (hb : sortedB raw = true) : st.reads fuel r fill qs mem out ↔
      out = readHits st.disk raw (prefill fill qs mem) := by
  have huniq : ∀ hs, SortedHits raw hs → hs = raw :=
    fun hs hh => sorted_unique hh (by simpa [sortedB] using hb)
  constructor
  · rintro (⟨raw', st'', l, e1, e2, e3⟩ | ⟨e1, _⟩ | ⟨e1, _⟩)
    · rw [hs] at e1
      simp only [Res.ok.injEq, Prod.mk.injEq] at e1
      obtain ⟨rfl, rfl⟩ := e1
      rw [e3, huniq l e2]
    · rw [hs] at e1; simp at e1
    · rw [hs] at e1; simp at e1
  · intro h
    obtain ⟨l, hl⟩ := sortedHits_exists raw
    exact Or.inl ⟨raw, st', l, hs, hl, by rw [huniq l hl]; exact h⟩

/-- **C16 is violated: a block inside another one.** In every configuration and with both indexes the
inner block `3..4` receives the bytes `8, 9`; read alone it receives `3, 4`. -/
theorem C16_nested_violated (enc share compact : Bool) :
    ∃ st st1, Reach ⟨enc, share⟩ st (oneFile nxW) ∧ (oneFile nxW).queue = [[nxW]] ∧ st.compact = compact ∧
      st.mbuf = none ∧ Fresh st 1000 ∧ Fresh st 2000 ∧ st.prepare fileMode 1000 2000 = .ok st1 ∧ Small st1 ∧
      ∀ fuel,
      (∀ out, st1.reads fuel 0 (fun _ => none) [nxQ] (fun _ => 0) out →
        ∃ m, out = .ok m ∧ m (Spec.addrOf nxQ 1 ⟨[3], [2]⟩ [3] 0) = 8 ∧ m (Spec.addrOf nxQ 1 ⟨[3], [2]⟩ [4] 0) = 9) ∧
      (∀ out, st1.reads fuel 0 (fun _ => none) [alone nxQ 1 ⟨[3], [2]⟩] (fun _ => 0) out →
        ∃ m, out = .ok m ∧ m (Spec.addrOf nxQ 1 ⟨[3], [2]⟩ [3] 0) = 3 ∧ m (Spec.addrOf nxQ 1 ⟨[3], [2]⟩ [4] 0) = 4) := by
  have h : ∀ enc share compact, okWith (fun st => okWith (fun st1 => decide (Small st1 ∧ st1.mbuf = none ∧
      st.compact = compact ∧ st.mbuf = none ∧ Fresh st 1000 ∧ Fresh st 2000) &&
      (okWith (fun raw => sortedB raw.1 && okWith (fun m =>
        decide (m (Spec.addrOf nxQ 1 ⟨[3], [2]⟩ [3] 0) = 8 ∧ m (Spec.addrOf nxQ 1 ⟨[3], [2]⟩ [4] 0) = 9))
          (readHitsF st1.disk raw.1 (prefill (fun _ => none) [nxQ] (fun _ => 0)))) (st1.search 0 0 [nxQ]) &&
       okWith (fun raw => sortedB raw.1 && okWith (fun m =>
        decide (m (Spec.addrOf nxQ 1 ⟨[3], [2]⟩ [3] 0) = 3 ∧ m (Spec.addrOf nxQ 1 ⟨[3], [2]⟩ [4] 0) = 4))
          (readHitsF st1.disk raw.1 (prefill (fun _ => none) [alone nxQ 1 ⟨[3], [2]⟩] (fun _ => 0))))
          (st1.search 0 0 [alone nxQ 1 ⟨[3], [2]⟩])))
      (st.prepare fileMode 1000 2000)) (oneRun ⟨enc, share⟩ compact nxW) = true := by decide +kernel
  obtain ⟨st, h1, h2⟩ := okWith_iff (h enc share compact)
  obtain ⟨st1, h3, h4⟩ := okWith_iff h2
  rw [Bool.and_eq_true, decide_eq_true_eq] at h4
  obtain ⟨⟨a1, a2, a3, a4, a5, a6⟩, a7⟩ := h4
  rw [Bool.and_eq_true] at a7
  obtain ⟨b1, b2⟩ := a7
  refine ⟨st, st1, one_reach (nx_ok _) rfl h1, rfl, a3, a4, a5, a6, h3, a1, fun fuel => ⟨?_, ?_⟩⟩
  · intro out ho
    obtain ⟨⟨raw, st'⟩, s1, s2⟩ := okWith_iff b1
    rw [Bool.and_eq_true] at s2
    obtain ⟨m, m1, m2⟩ := okWith_iff s2.2
    rw [search_fuel a2 0 fuel] at s1
    exact ⟨m, ((reads_unique s1 s2.1).mp ho).trans (readHitsF_eq m1), by simpa using m2⟩
  · intro out ho
    obtain ⟨⟨raw, st'⟩, s1, s2⟩ := okWith_iff b2
    rw [Bool.and_eq_true] at s2
    obtain ⟨m, m1, m2⟩ := okWith_iff s2.2
    rw [search_fuel a2 0 fuel] at s1
    exact ⟨m, ((reads_unique s1 s2.1).mp ho).trans (readHitsF_eq m1), by simpa using m2⟩

/-! Two writes and two crossing blocks. -/

def mxA : AW := ⟨0, nxD, [⟨[0], [10]⟩], List.replicate 10 1⟩
def mxB : AW := ⟨0, nxD, [⟨[4], [1]⟩], [2]⟩
def mxQ : RReq := ⟨0, nxD, [⟨[3], [7]⟩, ⟨[0], [6]⟩], 100⟩

def mxRun (cfg : Cfg) (compact : Bool) : Res FState := do
  let s ← oneRun cfg compact mxA
  s.write 0 0 mxB.bs mxB.data

def mxFile : AFile := (oneFile mxA).write 0 mxB

theorem mx_ok (cfg : Cfg) : WriteOK cfg mxA ∧ WriteOK cfg mxB := by
  constructor <;>
  · refine writeOK_one rfl (by decide) (by decide) (by decide) ⟨by decide, by decide, ?_⟩ (by decide) rfl
      (by decide)
    intro b hb
    simp [mxA, mxB] at hb
    subst hb
    constructor <;> decide

theorem mx_reach {cfg : Cfg} {compact : Bool} {st : FState} (h : mxRun cfg compact = .ok st) :
    Reach cfg st mxFile := by
  unfold mxRun at h
  obtain ⟨s1, h1, h⟩ := Res.bind_ok h
  exact Reach.write 0 mxB (one_reach (mx_ok _).1 rfl h1) (mayWrite_of (mx_ok cfg).2 rfl (p := [])
    (q := [mxA]) rfl rfl (by decide) (by simp [mxB])) h

/-- An ordering of the search results that `std::sort` may produce (for so few elements libstdc++ keeps the
order of equal elements, which gives this one). -/
def stableSort (raw : List Hit) : List Hit := raw.insertionSort (fun a b => hitLt b a = false)

theorem stableSort_sorted (raw : List Hit) (h : (stableSort raw).Pairwise (fun a b => hitLt b a = false)) :
    SortedHits raw (stableSort raw) := ⟨List.perm_insertionSort _ _, h⟩

/-- **C16 is violated: the newest data is lost.** Cell 4 was written by `mxA` (value 1), then by `mxB`
(value 2). The blocks `3..9` and `0..5` are read together, and both receive the value 1 for the cell. -/
theorem C16_newest_violated (enc share compact : Bool) :
    ∃ st st1, Reach ⟨enc, share⟩ st mxFile ∧ mxFile.queue = [[mxA, mxB]] ∧ st.compact = compact ∧
      st.mbuf = none ∧ Fresh st 1000 ∧ Fresh st 2000 ∧ st.prepare fileMode 1000 2000 = .ok st1 ∧ Small st1 ∧
      ∀ fuel,
      (∃ m, st1.reads fuel 0 (fun _ => none) [mxQ] (fun _ => 0) (.ok m) ∧
        m (Spec.addrOf mxQ 0 ⟨[3], [7]⟩ [4] 0) = 1 ∧ m (Spec.addrOf mxQ 1 ⟨[0], [6]⟩ [4] 0) = 1) ∧
      (∀ out, st1.reads fuel 0 (fun _ => none) [alone mxQ 0 ⟨[3], [7]⟩] (fun _ => 0) out →
        ∃ m, out = .ok m ∧ m (Spec.addrOf mxQ 0 ⟨[3], [7]⟩ [4] 0) = 2) := by
  have h : ∀ enc share compact, okWith (fun st => okWith (fun st1 => decide (Small st1 ∧ st1.mbuf = none ∧
      st.compact = compact ∧ st.mbuf = none ∧ Fresh st 1000 ∧ Fresh st 2000) &&
      (okWith (fun raw => decide ((stableSort raw.1).Pairwise (fun a b => hitLt b a = false)) && okWith (fun m =>
        decide (m (Spec.addrOf mxQ 0 ⟨[3], [7]⟩ [4] 0) = 1 ∧ m (Spec.addrOf mxQ 1 ⟨[0], [6]⟩ [4] 0) = 1))
          (readHitsF st1.disk (stableSort raw.1) (prefill (fun _ => none) [mxQ] (fun _ => 0))))
          (st1.search 0 0 [mxQ]) &&
       okWith (fun raw => sortedB raw.1 && okWith (fun m =>
        decide (m (Spec.addrOf mxQ 0 ⟨[3], [7]⟩ [4] 0) = 2))
          (readHitsF st1.disk raw.1 (prefill (fun _ => none) [alone mxQ 0 ⟨[3], [7]⟩] (fun _ => 0))))
          (st1.search 0 0 [alone mxQ 0 ⟨[3], [7]⟩])))
      (st.prepare fileMode 1000 2000)) (mxRun ⟨enc, share⟩ compact) = true := by decide +kernel
  obtain ⟨st, h1, h2⟩ := okWith_iff (h enc share compact)
  obtain ⟨st1, h3, h4⟩ := okWith_iff h2
  rw [Bool.and_eq_true, decide_eq_true_eq] at h4
  obtain ⟨⟨a1, a2, a3, a4, a5, a6⟩, a7⟩ := h4
  rw [Bool.and_eq_true] at a7
  obtain ⟨b1, b2⟩ := a7
  refine ⟨st, st1, mx_reach h1, rfl, a3, a4, a5, a6, h3, a1, fun fuel => ⟨?_, ?_⟩⟩
  · obtain ⟨⟨raw, st'⟩, s1, s2⟩ := okWith_iff b1
    rw [Bool.and_eq_true, decide_eq_true_eq] at s2
    obtain ⟨m, m1, m2⟩ := okWith_iff s2.2
    rw [search_fuel a2 0 fuel] at s1
    exact ⟨m, Or.inl ⟨raw, st', _, s1, stableSort_sorted raw s2.1, (readHitsF_eq m1).symm⟩, by simpa using m2⟩
  · intro out ho
    obtain ⟨⟨raw, st'⟩, s1, s2⟩ := okWith_iff b2
    rw [Bool.and_eq_true] at s2
    obtain ⟨m, m1, m2⟩ := okWith_iff s2.2
    rw [search_fuel a2 0 fuel] at s1
    exact ⟨m, ((reads_unique s1 s2.1).mp ho).trans (readHitsF_eq m1), by simpa using m2⟩

/-! A scalar dataset. -/

def sxD : DInfo := ⟨[], [], 4⟩
def sxW : AW := ⟨0, sxD, [⟨[], []⟩], [1, 2, 3, 4]⟩
def sxQ : List RReq := [⟨0, sxD, [⟨[], []⟩], 100⟩, ⟨0, sxD, [⟨[], []⟩], 200⟩]

theorem sx_ok : WriteOK ⟨false, true⟩ sxW := by
  refine writeOK_one rfl (by decide) (by decide) (by decide) ⟨by decide, by decide, ?_⟩ (by decide) rfl
    (by decide)
  intro b hb
  simp [sxW] at hb
  subst hb
  constructor <;> decide

theorem perm_pair {α : Type} {l : List α} {a b : α} (h : l.Perm [a, b]) : l = [a, b] ∨ l = [b, a] := by
  match l, h.length_eq with
  | [x, y], _ =>
    have hx := h.mem_iff.mp (List.mem_cons_self (a := x))
    simp only [List.mem_cons, List.not_mem_nil, or_false] at hx
    rcases hx with rfl | rfl
    · have := List.perm_singleton.mp h.cons_inv
      simp at this
      exact Or.inl (by rw [this])
    · have := List.perm_singleton.mp (h.trans (List.Perm.swap _ _ _)).cons_inv
      simp at this
      exact Or.inr (by rw [this])

/-- **C16 is violated: two reads of a scalar dataset in one flush** are undefined, because the code
computes row sizes of a dataset without dimensions. -/
theorem C16_scalar_violated (compact : Bool) :
    ∃ st st1, Reach ⟨false, true⟩ st (oneFile sxW) ∧ (oneFile sxW).queue = [[sxW]] ∧ st.compact = compact ∧
      st.mbuf = none ∧ Fresh st 1000 ∧ Fresh st 2000 ∧ st.prepare fileMode 1000 2000 = .ok st1 ∧ Small st1 ∧
      ∀ fuel fill mem,
      (∃ out, st1.reads fuel 0 fill sxQ mem out) ∧ (∀ out, st1.reads fuel 0 fill sxQ mem out → out = .ub) := by
  have h : ∀ compact, okWith (fun st => okWith (fun st1 => decide (Small st1 ∧ st1.mbuf = none ∧
      st.compact = compact ∧ st.mbuf = none ∧ Fresh st 1000 ∧ Fresh st 2000) &&
      okWith (fun raw => match raw.1 with
        | [a, b] => isUb (genSegs (groups [a, b])) && isUb (genSegs (groups [b, a]))
        | _ => false) (st1.search 0 0 sxQ))
      (st.prepare fileMode 1000 2000)) (oneRun ⟨false, true⟩ compact sxW) = true := by decide +kernel
  obtain ⟨st, h1, h2⟩ := okWith_iff (h compact)
  obtain ⟨st1, h3, h4⟩ := okWith_iff h2
  rw [Bool.and_eq_true, decide_eq_true_eq] at h4
  obtain ⟨⟨a1, a2, a3, a4, a5, a6⟩, a7⟩ := h4
  obtain ⟨⟨raw, st'⟩, s1, s2⟩ := okWith_iff a7
  refine ⟨st, st1, one_reach sx_ok rfl h1, rfl, a3, a4, a5, a6, h3, a1, fun fuel fill mem => ?_⟩
  rw [search_fuel a2 0 fuel] at s1
  match raw, s1, s2 with
  | [a, b], s1, s2 =>
    simp only [Bool.and_eq_true] at s2
    have u1 := isUb_iff s2.1
    have u2 := isUb_iff s2.2
    constructor
    · obtain ⟨hs, hh⟩ := sortedHits_exists [a, b]
      exact ⟨_, Or.inl ⟨_, st', hs, s1, hh, rfl⟩⟩
    · rintro out (⟨raw', st'', hs, e1, e2, e3⟩ | ⟨e1, _⟩ | ⟨e1, _⟩)
      · rw [s1] at e1
        simp only [Res.ok.injEq, Prod.mk.injEq] at e1
        obtain ⟨rfl, rfl⟩ := e1
        rw [e3]
        unfold readHits
        rcases perm_pair e2.1 with rfl | rfl
        · rw [u1]; rfl
        · rw [u2]; rfl
      · rw [s1] at e1; simp at e1
      · rw [s1] at e1; simp at e1

/-! ### C01 without the hypothesis on addresses -/

def axD : DInfo := ⟨[2], [some 2], 1⟩
def axA : AW := ⟨0, axD, [⟨[0], [1]⟩], [1]⟩
def axB : AW := ⟨0, axD, [⟨[0], [1]⟩], [2]⟩
def axQ : RReq := ⟨0, axD, [⟨[0], [1]⟩], 100⟩

/-- `axA` is written and flushed to address 5000, then `axB` is written. -/
def axRun (cfg : Cfg) (compact : Bool) : Res FState := do
  let s ← oneRun cfg compact axA
  let s ← s.fileFlush 5000
  s.write 0 0 axB.bs axB.data

def axFile : AFile := ((oneFile axA).flush).write 0 axB

theorem ax_ok (cfg : Cfg) : WriteOK cfg axA ∧ WriteOK cfg axB := by
  constructor <;>
  · refine writeOK_one rfl (by decide) (by decide) (by decide) ⟨by decide, by decide, ?_⟩ (by decide) rfl
      (by decide)
    intro b hb
    simp [axA, axB] at hb
    subst hb
    constructor <;> decide

theorem ax_reach {cfg : Cfg} {compact : Bool} {st : FState} (h : axRun cfg compact = .ok st) :
    Reach cfg st axFile := by
  unfold axRun at h
  obtain ⟨s1, h1, h⟩ := Res.bind_ok h
  obtain ⟨s2, h2, h⟩ := Res.bind_ok h
  have r1 := one_reach (ax_ok _).1 rfl h1
  have hf : Fresh s1 5000 := by
    have r0 : Reach cfg ((FState.create cfg compact none 1 (fun _ => 0)).addDset axD)
        ((AFile.create 1).addDset axD) :=
      Reach.addDset axD (Reach.create compact none 1 _ (by decide) (by decide))
    obtain ⟨s1', e1, e2, e3, _⟩ := reach_write r0 (r := 0) (mayWrite_of (ax_ok cfg).1 rfl (p := []) (q := []) rfl rfl
      (by decide) (by simp)) (by decide)
    rw [show s1' = s1 from by
      have := e1.symm.trans h1
      simpa using this] at e2 e3
    intro e he
    rw [e2, e3] at he
    simp [FState.create, FState.addDset] at he
  obtain ⟨s2', e1, _, _, _, _, _, r2⟩ := reach_flush r1 hf (by decide)
  rw [show s2' = s2 from by
    have := e1.symm.trans h2
    simpa using this] at r2
  exact Reach.write 0 axB r2 (mayWrite_of (ax_ok cfg).2 rfl (p := [axA]) (q := []) rfl rfl (by decide)
    (by simp [axB])) h

/-- **C01 needs the hypothesis `Fresh`.** If HDF5 gives the second log dataset unused space below the
first one, the read returns the older value. (HDF5 serves small allocations from a block reserved
earlier, so a small flush that follows a large one can be placed below it.) -/
theorem C01_addresses_violated (enc share compact : Bool) :
    ∃ st st1, Reach ⟨enc, share⟩ st axFile ∧ axFile.done ++ axFile.queue.flatten = [axA, axB] ∧
      st.compact = compact ∧ st.mbuf = none ∧
      (∀ e ∈ st.lds ++ st.mds, 1000 + Spec.queued axFile ≤ e.addr) ∧ Fresh st 9000 ∧
      st.prepare fileMode 1000 9000 = .ok st1 ∧ Small st1 ∧
      lastByte [axA, axB] 0 [0] 0 = some 2 ∧
      ∀ fuel out, st1.reads fuel 0 (fun _ => none) [axQ] (fun _ => 0) out →
        ∃ m, out = .ok m ∧ m (Spec.addrOf axQ 0 ⟨[0], [1]⟩ [0] 0) = 1 := by
  have h : ∀ enc share compact, okWith (fun st => okWith (fun st1 => decide (Small st1 ∧ st1.mbuf = none ∧
      st.compact = compact ∧ st.mbuf = none ∧ (∀ e ∈ st.lds ++ st.mds, 1000 + Spec.queued axFile ≤ e.addr) ∧
      Fresh st 9000) &&
      okWith (fun raw => match raw.1 with
        | [a, b] => sortedB [b, a] && okWith (fun m => decide (m (Spec.addrOf axQ 0 ⟨[0], [1]⟩ [0] 0) = 1))
          (readHitsF st1.disk [b, a] (prefill (fun _ => none) [axQ] (fun _ => 0)))
        | _ => false) (st1.search 0 0 [axQ]))
      (st.prepare fileMode 1000 9000)) (axRun ⟨enc, share⟩ compact) = true := by decide +kernel
  obtain ⟨st, h1, h2⟩ := okWith_iff (h enc share compact)
  obtain ⟨st1, h3, h4⟩ := okWith_iff h2
  rw [Bool.and_eq_true, decide_eq_true_eq] at h4
  obtain ⟨⟨a1, a2, a3, a4, a5, a6⟩, a7⟩ := h4
  obtain ⟨⟨raw, st'⟩, s1, s2⟩ := okWith_iff a7
  refine ⟨st, st1, ax_reach h1, rfl, a3, a4, a5, a6, h3, a1, by decide, fun fuel out ho => ?_⟩
  rw [search_fuel a2 0 fuel] at s1
  match raw, s1, s2 with
  | [a, b], s1, s2 =>
    simp only [Bool.and_eq_true] at s2
    obtain ⟨m, m1, m2⟩ := okWith_iff s2.2
    rcases ho with ⟨raw', st'', hs, e1, e2, e3⟩ | ⟨e1, _⟩ | ⟨e1, _⟩
    · rw [s1] at e1
      simp only [Res.ok.injEq, Prod.mk.injEq] at e1
      obtain ⟨rfl, rfl⟩ := e1
      have : hs = [b, a] := sorted_unique ⟨e2.1.trans (List.Perm.swap _ _ _), e2.2⟩
        (by simpa [sortedB] using s2.1)
      rw [e3, this, readHitsF_eq m1]
      exact ⟨m, rfl, by simpa using m2⟩
    · rw [s1] at e1; simp at e1
    · rw [s1] at e1; simp at e1

end Verif.Props
