import Verif.Lemmas.QueueApi
import Verif.Props.Queue
import Verif.Props.Api

/-
C83: queued H5Dread calls with dataspaces and memory types.
-/

namespace Verif.Props

open Verif.Spec (AW AFile Fresh Small Served ReqsOK ReqsWF Viewable Reach ReadResult RowLt Separate NoCommon Exact Xfer UFile UW Calls Made
  QCall QueuedBy bufSize bytesAt Supported)

/-! ### What a process has queued -/

/-- The request `q`, as it is executed, belongs to the call `k`. -/
structure Stands (dsets : DSets) (q : RReq) (k : QCall) : Prop where
  did : q.did = k.c.did
  dset : dsets[q.did]? = some (some q.d)
  esize : q.d.esize = k.d.esize
  ndim : q.d.ndim = k.d.ndim
  exact : Exact k.d.ndim q.bs k.xs
  sorted : k.xs.Pairwise RowLt
  within : ∀ x ∈ k.xs, List.Forall₂ (· < ·) x k.d.dims
  dims : ∀ n ∈ k.d.dims, n < 2 ^ 31
  es : 0 < k.d.esize
  ne : k.xs ≠ []
  buf : ∀ z, q.xbuf ≤ z → z < q.xbuf + k.d.esize * k.xs.length → k.User z ∨ k.Inner z

theorem Stands.size {dsets : DSets} {q : RReq} {k : QCall} (h : Stands dsets q k) : bufSize q = k.d.esize * k.xs.length := by
  have := (h.exact.holds q.d.esize).1
  unfold bufSize
  rw [this, h.esize]

theorem serves_together {compact : Bool} {dsets : DSets} {qs : List RReq} {ks : List QCall} (h : List.Forall₂ (Stands dsets) qs ks)
    (ha : ks.Pairwise QCall.Apart) (hp : ks.Pairwise QCall.Sep) : ReqsOK compact dsets qs ∧ Viewable qs := by
  have each : ∀ q ∈ qs, ∃ k, Stands dsets q k := fun q hq => by
    obtain ⟨k, _, hk⟩ := forall₂_mem_left h hq
    exact ⟨k, hk⟩
  have sep : qs.Pairwise (fun q q' => q.did = q'.did → ∀ b ∈ q.bs, ∀ b' ∈ q'.bs, Separate b b') := by
    refine pairwise_made (fun q q' k k' h1 h2 hs hd b hb b' hb' => ?_) h hp
    rcases hs (by rw [← h1.did, ← h2.did, hd]) with hs | hs
    · exact .inl fun x y hx hy => hs x (h1.exact.cover b hb x hx) y (h2.exact.cover b' hb' y hy)
    · exact .inr fun x y hx hy => hs x (h1.exact.cover b hb x hx) y (h2.exact.cover b' hb' y hy)
  have bnd : ∀ q ∈ qs, ∀ b ∈ q.bs, (∀ c ∈ b.count, c < 2 ^ 31) ∧ ∀ a ∈ b.start, a < 2 ^ 31 := by
    intro q hq
    obtain ⟨k, hk⟩ := each q hq
    exact hk.exact.bounds hk.within hk.dims
  constructor
  · refine ⟨?_, ?_, ?_, fun q hq b hb => (bnd q hq b hb).1, ?_, ?_, ?_, ?_⟩
    · intro q hq
      obtain ⟨k, hk⟩ := each q hq
      exact hk.dset
    · intro q hq
      obtain ⟨k, hk⟩ := each q hq
      rw [hk.esize]
      exact hk.es
    · intro q hq b hb
      obtain ⟨k, hk⟩ := each q hq
      rw [hk.ndim]
      exact ⟨(hk.exact.shape b hb).1, (hk.exact.shape b hb).2.1⟩
    · intro _ q hq b hb n hn
      exact (bnd q hq b hb).2 n (List.mem_of_mem_head? hn)
    · intro q hq
      obtain ⟨k, hk⟩ := each q hq
      exact hk.exact.noCommon hk.sorted
    · refine sep.imp (fun {q q'} hs hd b hb b' hb' x hx => ?_)
      rcases hs hd b hb b' hb' with hs | hs
      · exact RowLt.irrefl (hs x x hx.1 hx.2)
      · exact RowLt.irrefl (hs x x hx.1 hx.2)
    · refine pairwise_made (fun q q' k k' h1 h2 hs => ?_) h ha
      rw [h1.size, h2.size]
      have p1 : 0 < k.d.esize * k.xs.length := Nat.mul_pos h1.es (List.length_pos_iff.mpr h1.ne)
      have p2 : 0 < k'.d.esize * k'.xs.length := Nat.mul_pos h2.es (List.length_pos_iff.mpr h2.ne)
      rcases Nat.lt_or_ge q'.xbuf (q.xbuf + k.d.esize * k.xs.length) with g1 | g1
      · rcases Nat.lt_or_ge q.xbuf (q'.xbuf + k'.d.esize * k'.xs.length) with g2 | g2
        · exact absurd ⟨h1.buf (max q.xbuf q'.xbuf) (by omega) (by omega), h2.buf (max q.xbuf q'.xbuf) (by omega) (by omega)⟩ (hs _)
        · exact .inr g2
      · exact .inl g1
  · refine ⟨?_, sep.imp (fun hs hd b hb b' hb' => .inr (.inr (.inr (hs hd b hb b' hb')))), .inr ⟨?_, sep⟩⟩
    · intro q hq
      obtain ⟨k, hk⟩ := each q hq
      exact (hk.exact.separate hk.sorted).imp (fun h => .inr (.inr (.inr h)))
    · intro q hq
      obtain ⟨k, hk⟩ := each q hq
      exact hk.exact.separate hk.sorted

theorem result_elems {srt : List (List Nat) → List Nat} (hs : IsSort srt) {ws : List AW} {us : List UW} (h : List.Forall₂ (Made srt) ws us)
    {fill : Nat → Option (List Byte)} {qs : List RReq} {mem mem' : Mem} (hr : ReadResult ws fill qs mem mem') {q : RReq} (hq : q ∈ qs)
    {dsets : DSets} {k : QCall} (hk : Stands dsets q k) (i : Nat) (hi : i < k.xs.length) (j : Nat) (hj : j < k.d.esize) :
    mem' (q.xbuf + k.d.esize * i + j) = Verif.Spec.expectedElem us fill k.c.did k.xs[i] j (mem (q.xbuf + k.d.esize * i + j)) := by
  obtain ⟨n, hn, hin, he⟩ := hk.exact.block hi q.d.esize
  have h4 := hr.val q hq n hn _ hin j (by rw [hk.esize]; exact hj)
  have h5 : Verif.Spec.addrOf q n q.bs[n] k.xs[i] j = q.xbuf + k.d.esize * i + j := by
    unfold Verif.Spec.addrOf
    rw [Nat.add_assoc q.xbuf, he, hk.esize]
  rw [h5] at h4
  rw [h4]
  unfold Verif.Spec.expected Verif.Spec.expectedElem
  rw [lastByte_elem hs h, hk.did]
  rfl

/-! ### Post-processing -/

theorem value_length {k : QCall} (hk : k.OK) {l : List Byte} (h : l.length = k.d.esize) : (k.value l).length = k.size := by
  unfold QCall.value QCall.size
  cases hc : k.c.conv with
  | none => exact h
  | some v => exact hk.conv v hc l h

theorem as_length {k : QCall} (hk : k.OK) : k.as.length = k.xs.length := (memAt_cases hk.xfer).1

/-- All requests of a process. -/
theorem posts_ok {srt : List (List Nat) → List Nat} (hs : IsSort srt) {ks : List QCall} {ps : List Pend}
    (h : List.Forall₂ (QueuedBy srt) ks ps) : (∀ k ∈ ks, k.OK) → ks.Pairwise QCall.Apart → ∀ mem, ∃ mem', posts ps mem = .ok mem' ∧
      (∀ (n : Nat) (k : QCall) (p : Pend), ks[n]? = some k → ps[n]? = some p → ∀ i a j b, k.as[i]? = some a →
        (k.value (fileBytes mem (p.q.xbuf + k.d.esize * i) k.d.esize))[j]? = some b → mem' (a + j) = b) ∧
      ∀ z, (∀ k ∈ ks, ¬ k.User z ∧ ¬ k.Inner z) → mem' z = mem z := by
  induction h with
  | nil =>
    intro _ _ mem
    exact ⟨mem, rfl, fun n k p hn => by simp at hn, fun _ _ => rfl⟩
  | @cons k p ks ps h1 h2 ih =>
    intro hok hap mem
    rw [List.pairwise_cons] at hap
    have hk := hok k (by simp)
    obtain ⟨_, _, _, _, hbuf, hpost⟩ := queued_ok hs h1 hk
    obtain ⟨m1, e1, v1, f1⟩ := hpost mem
    obtain ⟨m2, e2, v2, f2⟩ := ih (fun k hk => hok k (by simp [hk])) hap.2 m1
    refine ⟨m2, ?_, ?_, ?_⟩
    · unfold posts
      rw [e1, Res.ok_bind, e2]
    · intro n k' p' hn hp i a j b hi hb
      cases n with
      | zero =>
        simp only [List.getElem?_cons_zero, Option.some.injEq] at hn hp
        subst hn hp
        rw [f2, v1 i a j b hi hb]
        intro k'' hk''
        have hj : j < k.size := by
          have := (List.getElem?_eq_some_iff.mp hb).1
          rwa [value_length hk (fileBytes_length _ _ _)] at this
        have hu : k.User (a + j) := ⟨a, List.mem_of_getElem? hi, by omega, by omega⟩
        have := hap.1 k'' hk'' (a + j)
        exact ⟨fun hx => this ⟨.inl hu, .inl hx⟩, fun hx => this ⟨.inl hu, .inr hx⟩⟩
      | succ n =>
        rw [List.getElem?_cons_succ] at hn hp
        refine v2 n k' p' hn hp i a j b hi ?_
        have hk' := hok k' (List.mem_cons_of_mem _ (List.mem_of_getElem? hn))
        have hq' : QueuedBy srt k' p' := by
          obtain ⟨g1, rfl⟩ := List.getElem?_eq_some_iff.mp hn
          obtain ⟨g2, rfl⟩ := List.getElem?_eq_some_iff.mp hp
          exact List.Forall₂.get h2 g1 g2
        obtain ⟨_, _, _, _, hbuf', _⟩ := queued_ok hs hq' hk'
        have : fileBytes m1 (p'.q.xbuf + k'.d.esize * i) k'.d.esize = fileBytes mem (p'.q.xbuf + k'.d.esize * i) k'.d.esize := by
          unfold fileBytes
          refine List.map_congr_left fun x hx => ?_
          have hx := List.mem_range.mp hx
          have hil : i < k'.xs.length := by
            have := (List.getElem?_eq_some_iff.mp hi).1
            rwa [as_length hk'] at this
          have hmul : k'.d.esize * (i + 1) ≤ k'.d.esize * k'.xs.length := Nat.mul_le_mul_left _ hil
          rw [Nat.mul_add] at hmul
          have hz := hbuf' (p'.q.xbuf + k'.d.esize * i + x) (by omega) (by omega)
          have := hap.1 k' (List.mem_of_getElem? hn) (p'.q.xbuf + k'.d.esize * i + x)
          exact f1 _ (fun hx => this ⟨.inl hx, hz⟩) (fun hx => this ⟨.inr hx, hz⟩)
        rw [this]
        exact hb
    · intro z hz
      rw [f2 z (fun k hk => hz k (by simp [hk])), f1 z (hz k (by simp)).1 (hz k (by simp)).2]

theorem postsAll_ok {srt : List (List Nat) → List Nat} (hs : IsSort srt) {kss : List (List QCall)} {pss : List (List Pend)}
    (h : List.Forall₂ (List.Forall₂ (QueuedBy srt)) kss pss) : (∀ ks ∈ kss, (∀ k ∈ ks, k.OK) ∧ ks.Pairwise QCall.Apart) →
      ∀ ms : List Mem, ms.length = pss.length → ∃ ms', postsAll pss ms = .ok ms' ∧ ms'.length = pss.length ∧
      ∀ (r : Nat) (ks : List QCall) (ps : List Pend) (m m' : Mem), kss[r]? = some ks → pss[r]? = some ps → ms[r]? = some m → ms'[r]? = some m' →
        posts ps m = .ok m' := by
  induction h with
  | nil =>
    intro _ ms hl
    have : ms = [] := by simpa using hl
    subst this
    exact ⟨[], rfl, rfl, fun r ks ps m m' hn => by simp at hn⟩
  | @cons ks ps kss pss h1 h2 ih =>
    intro hok ms hl
    match ms, hl with
    | m :: ms, hl =>
    obtain ⟨ms', e1, e2, e3⟩ := ih (fun ks hk => hok ks (by simp [hk])) ms (by simpa using hl)
    obtain ⟨m', f1, _⟩ := posts_ok hs h1 (hok ks (by simp)).1 (hok ks (by simp)).2 m
    refine ⟨m' :: ms', ?_, by simp [e2], ?_⟩
    · unfold postsAll
      rw [f1, Res.ok_bind, e1, Res.ok_bind]
      rfl
    · intro r ks' ps' m0 m0' a1 a2 a3 a4
      cases r with
      | zero =>
        simp only [List.getElem?_cons_zero, Option.some.injEq] at a1 a2 a3 a4
        subst a1 a2 a3 a4
        exact f1
      | succ r =>
        simp only [List.getElem?_cons_succ] at a1 a2 a3 a4
        exact e3 r ks' ps' m0 m0' a1 a2 a3 a4

/-! ### The file after the flush -/

theorem readAll_searches {fuel : Nat} {fill : Nat → Option (List Byte)} {r : Nat} {st : FState} {qss : List (List RReq)} {ms : List Mem}
    {out : Res (FState × List Mem)} (h : ReadAll fuel fill r st qss ms out) : ∀ {st0}, FState.Searches st0 st → ∀ {st' ms'}, out = .ok (st', ms') →
      FState.Searches st0 st' := by
  induction h with
  | nil r st =>
    intro st0 h0 st' ms' e
    simp only [Res.ok.injEq, Prod.mk.injEq] at e
    rw [← e.1]
    exact h0
  | @ok r st st1 qs qss m m' ms raw out h1 h2 h3 ih =>
    intro st0 h0 st' ms' e
    obtain ⟨p, e1, e2⟩ := Res.bind_ok e
    simp only [Res.ok.injEq, Prod.mk.injEq] at e2
    exact ih (h0.step fuel r qs h2) (st' := st') (ms' := p.2) (by rw [e1, ← e2.1])
  | err => intro _ _ _ _ e; simp at e
  | ub => intro _ _ _ _ e; simp at e

/-- After H5Fflush with queued reads the application finds a file with all writes in effect. -/
theorem flush_calls {srt : List (List Nat) → List Nat} (hs : IsSort srt) {cfg : Cfg} {s s' : QState} {u : UFile} (h : Calls srt cfg s.st u)
    {fuel doff mdoff : Nat} {fill : Nat → Option (List Byte)} (hf : Fresh s.st doff) (hf' : Fresh s.st mdoff) (hd : doff + u.size ≤ mdoff)
    {st1 : FState} (h1 : s.st.prepare true doff mdoff = .ok st1) (hsm : Small st1) (hne : s.rq.flatten ≠ [])
    {out : Res QState} (hfl : s.Flush fuel fill doff mdoff out) (ho : out = .ok s') : Calls srt cfg s'.st u.flush := by
  obtain ⟨a, r1, r2⟩ := calls_reach hs h
  obtain ⟨g, inv⟩ := reach_inv r1
  obtain ⟨stf, e0, e2, _, _, _, _, e6, _⟩ := inv_fileFlush inv hf
  have hst1 : st1 = if stf.metadirty then stf.metaflush mdoff else stf := by
    unfold FState.prepare at h1
    unfold FState.fileFlush at e0
    rw [Bool.true_or, Bool.true_and, e0, Res.ok_bind] at h1
    simpa using h1.symm
  have hsub : ∀ e ∈ stf.lds ++ stf.mds, e ∈ st1.lds ++ st1.mds := by
    intro e he
    rw [hst1]
    split
    · unfold FState.metaflush
      dsimp only
      split
      · rcases List.mem_append.mp he with he | he
        · exact List.mem_append.mpr (.inl he)
        · exact List.mem_append.mpr (.inr (List.mem_append.mpr (.inl he)))
      · exact he
    · exact he
  have c1 : Calls srt cfg stf u.flush := .flush doff h hf e0 (fun e he => hsm e (hsub e he))
  have hfm : Fresh stf mdoff := by
    intro e he
    rcases List.mem_append.mp he with he | he
    · rcases e6 e he with he | rfl
      · exact hf' e (List.mem_append.mpr (.inl he))
      · rw [r2.size]
        exact hd
    · rw [e2] at he
      exact hf' e (List.mem_append.mpr (.inr he))
  have hq0 : u.flush.queue.flatten = [] := by simp [UFile.flush, List.map_const']
  obtain ⟨a', r1', r2'⟩ := calls_reach hs c1
  obtain ⟨g', inv'⟩ := reach_inv r1'
  have hnp : stf.anyPending = false := by
    cases hb : stf.anyPending with
    | false => rfl
    | true => exact absurd (r2'.empty.mpr hq0) (inv'.anyPending.mp hb)
  have hdr : stf.dread true mdoff mdoff = .ok st1 := by
    unfold FState.dread FState.prepare
    rw [hnp, Bool.and_false, if_neg (by simp), Res.ok_bind, hst1]
    rfl
  have hz : u.flush.size = 0 := by
    unfold UFile.size
    rw [hq0]
    rfl
  have huu : u.flush.flush = u.flush := by
    unfold UFile.flush UFile.all
    simp [List.map_const']
  cases hfl with
  | err => simp at ho
  | ub => simp at ho
  | idle _ e => exact absurd e hne
  | @reads st2 out e _ e3 =>
    rw [e0] at e
    simp only [Res.ok.injEq] at e
    subst e
    rw [← hst1] at e3
    obtain ⟨p, o1, o2⟩ := Res.bind_ok ho
    simp only [Res.ok.injEq] at o2
    have hse := readAll_searches e3 (.refl st1) (st' := p.1) (ms' := p.2) o1
    have := Calls.read true mdoff mdoff c1 (.inr hq0) hfm hfm (by rw [hz]; omega) hdr hsm hse
    rw [huu] at this
    rw [← o2]
    exact this

/-! ### H5Fflush -/

theorem forall₂_mem_both {α β : Type} {R : α → β → Prop} {l : List α} {l' : List β} (h : List.Forall₂ R l l') {y : β} (hy : y ∈ l') :
    ∃ x ∈ l, R x y := by
  obtain ⟨x, hx, hr⟩ := forall₂_mem_left (List.Forall₂.flip h) hy
  exact ⟨x, hx, hr⟩

/-- The requests of a process, as they are executed. -/
theorem stands_of {srt : List (List Nat) → List Nat} (hs : IsSort srt) {cfg : Cfg} {compact : Bool} {u : UFile} {dsets : DSets} (hds : dsets = u.dsets)
    {ks : List QCall} {ps : List Pend} (h : List.Forall₂ (QueuedBy srt) ks ps) : (∀ k ∈ ks, k.OK ∧ k.Open cfg compact u) →
      List.Forall₂ (Stands dsets) ((ps.map Pend.q).map (RReq.now dsets)) ks ∧
      List.Forall₂ (Current dsets) (ps.map Pend.q) ((ps.map Pend.q).map (RReq.now dsets)) := by
  induction h with
  | nil => exact fun _ => ⟨.nil, .nil⟩
  | @cons k p ks ps h1 h2 ih =>
    intro hok
    obtain ⟨i1, i2⟩ := ih (fun k hk => hok k (by simp [hk]))
    obtain ⟨hk, ho⟩ := hok k (by simp)
    obtain ⟨q1, q2, q3, q4, q5, _⟩ := queued_ok hs h1 hk
    obtain ⟨d, d1, d2, d3⟩ := ho.dset
    rw [← hds, ← q1] at d1
    have hnow : RReq.now dsets p.q = { p.q with d := d } := by
      unfold RReq.now
      rw [d1]
    refine ⟨.cons ?_ i1, .cons ?_ i2⟩
    · rw [hnow]
      exact ⟨q1, d1, d3, d2, q3, q4, hk.xfer.within, hk.xfer.dims, hk.es, hk.ne, q5⟩
    · rw [hnow]
      exact ⟨rfl, rfl, rfl, d1⟩

/-- **C83, partial: cells of different calls of a process in row-major order, memory types not wider than those of the datasets in memory
selections.**  After any sequence of calls, with any H5Dread calls queued by any processes, with dataspaces of the file and of memory and with
conversions, H5Fflush succeeds.  Then every selected element of memory is the converted element of its cell, as left by all writes before the
flush (those of all processes, queued ones included); memory that belongs to no call is unchanged; nothing is queued any more; and the file
is one with all writes in effect. -/
theorem C83_flush_partial {srt : List (List Nat) → List Nat} (hs : IsSort srt) {cfg : Cfg} {s : PState} {u : UFile} (h : Calls srt cfg s.st u)
    (hl : s.rq.length = u.queue.length) (hml : s.mem.length = u.queue.length) (hne : s.rq.flatten ≠ []) {kss : List (List QCall)}
    (hks : List.Forall₂ (List.Forall₂ (QueuedBy srt)) kss s.rq)
    (hk : ∀ ks ∈ kss, (∀ k ∈ ks, k.OK ∧ k.Open cfg s.st.compact u) ∧ ks.Pairwise QCall.Apart ∧ ks.Pairwise QCall.Sep)
    {doff mdoff : Nat} (hf : Fresh s.st doff) (hf' : Fresh s.st mdoff) (hd : doff + u.size ≤ mdoff) (hm : s.st.mbuf = none ∨ u.all ≠ []) :
    ∃ st1, s.st.prepare true doff mdoff = .ok st1 ∧ (Small st1 → ∃ n, ∀ fuel ≥ n, ∀ fill,
      (∃ s', s.Flush fuel fill doff mdoff (.ok s')) ∧
      ∀ out, s.Flush fuel fill doff mdoff out → ∃ s', out = .ok s' ∧ Calls srt cfg s'.st u.flush ∧
        s'.rq = List.replicate u.queue.length [] ∧ s'.mem.length = u.queue.length ∧
        ∀ (r : Nat) (ks : List QCall) (m m' : Mem), kss[r]? = some ks → s.mem[r]? = some m → s'.mem[r]? = some m' →
          (∀ k ∈ ks, k.Got u.all fill m') ∧ ∀ z, (∀ k ∈ ks, ¬ k.User z ∧ ¬ k.Inner z) → m' z = m z) := by
  obtain ⟨a, r1, r2⟩ := calls_reach hs h
  obtain ⟨g, inv⟩ := reach_inv r1
  have hqs : Verif.Spec.queued a = u.size := r2.size
  obtain ⟨st1, h1, _⟩ := inv_prepare inv hf hf' (by rw [hqs]; exact hd) (Or.inl rfl : true = true ∨ _)
  refine ⟨st1, h1, fun hsm => ?_⟩
  have hp : a.prepare true = a.flush.metaflush := by simp [AFile.prepare]
  have hreach := Reach.prepare true doff mdoff r1 hf hf' (by rw [hqs]; exact hd) (Or.inl rfl) h1 hsm
  have hall : List.Forall₂ (Made srt) (a.done ++ a.queue.flatten) u.all := r2.all
  have hdone : (a.prepare true).done = a.done ++ a.queue.flatten := by
    rw [hp]
    rfl
  have hdsets : (a.prepare true).dsets = u.dsets := by
    rw [hp]
    exact r2.dsets
  have hread : ∀ k : QCall, k.Open cfg s.st.compact u → Verif.Spec.Readable cfg s.st.compact a.flush.metaflush k.c.did := by
    intro k ho
    obtain ⟨i1, i2, i3⟩ := ho.idx
    obtain ⟨d, d1, _⟩ := ho.dset
    have e : (⟨u.dsets, u.all, []⟩ : UFile).all = u.all := List.append_nil _
    rw [← hp]
    refine rep_readable hs hreach (prepared_epoch _ _) (by rw [hdone]; exact hall) (q := []) ?_ rfl ?_
    · rw [hdsets]
      exact ⟨by rw [e]; exact i1, by rw [e]; exact i2, by rw [e]; exact i3⟩
    · rw [hdsets]
      simp [Verif.Spec.present, d1]
  -- the conditions on the requests
  have hq : ∀ qs ∈ s.raw.rq, ∃ qs', List.Forall₂ (Current a.dsets) qs qs' ∧ Served cfg s.st.compact a.flush.metaflush qs' ∧
      ReqsWF s.st.compact a.dsets qs' ∧ Viewable qs' ∧ Verif.Spec.Repeats (a.done ++ a.queue.flatten) qs' := by
    intro qs hqs
    obtain ⟨ps, hps, rfl⟩ := List.mem_map.mp hqs
    obtain ⟨ks, hkm, hkp⟩ := forall₂_mem_both hks hps
    obtain ⟨k1, k2, k3⟩ := hk ks hkm
    obtain ⟨s1, s2⟩ := stands_of hs (dsets := a.dsets) r2.dsets hkp k1
    obtain ⟨t1, t2⟩ := serves_together (compact := s.st.compact) s1 k2 k3
    refine ⟨_, s2, ?_, t1.wf, t2, t1.repeats _⟩
    have hqr : ∀ q ∈ (ps.map Pend.q).map (RReq.now a.dsets), Verif.Spec.Readable cfg s.st.compact a.flush.metaflush q.did := by
      intro q hq
      obtain ⟨k, hkk, hst⟩ := forall₂_mem_left s1 hq
      rw [hst.did]
      exact hread k (k1 k hkk).2
    refine ⟨fun hc => ?_, fun hc q hqm _ => (hqr q hqm).meas hc, fun hc q hqm _ => (hqr q hqm).leg hc, fun hc q hqm _ => (hqr q hqm).recs hc⟩
    obtain ⟨p, hp1⟩ := List.exists_mem_of_ne_nil _ hne
    obtain ⟨ps', hps', hp2⟩ := List.mem_flatten.mp hp1
    obtain ⟨ks', hkm', hkp'⟩ := forall₂_mem_both hks hps'
    obtain ⟨k, hkk, _⟩ := forall₂_mem_both hkp' hp2
    exact (hread k ((hk ks' hkm').1 k hkk).2).build hc
  have hraw : s.raw.rq.flatten ≠ [] := by
    intro e
    apply hne
    have : s.raw.rq.flatten = s.rq.flatten.map Pend.q := by
      unfold PState.raw
      rw [List.map_flatten]
    rw [this] at e
    simpa using e
  have hm' : s.st.mbuf = none ∨ a.done ++ a.queue.flatten ≠ [] := by
    refine hm.imp_right (fun hn he => ?_)
    rw [he] at hall
    cases hall'  : u.all with
    | nil => exact hn hall'
    | cons x l => rw [hall'] at hall; cases hall
  obtain ⟨st1', e1, hmain⟩ := C76_flush_partial cfg (s := s.raw) (a := a) r1 (by simp [PState.raw, hl, r2.len]) (by simp [PState.raw, hml, r2.len])
    hraw hf hf' (by rw [hqs]; exact hd) hq hm'
  have : st1' = st1 := by
    have : s.raw.st = s.st := rfl
    rw [this, h1] at e1
    simpa using e1.symm
  subst this
  obtain ⟨n, hn⟩ := hmain hsm
  refine ⟨n, fun fuel hfu fill => ?_⟩
  obtain ⟨⟨s0, hs0⟩, hall0⟩ := hn fuel hfu fill
  have key : ∀ o, s.raw.Flush fuel fill doff mdoff o → ∃ s1 ms, o = .ok s1 ∧ postsAll s.rq s1.mem = .ok ms ∧ Calls srt cfg s1.st u.flush ∧
      ms.length = u.queue.length ∧ ∀ (r : Nat) (ks : List QCall) (m m' : Mem), kss[r]? = some ks → s.mem[r]? = some m → ms[r]? = some m' →
        (∀ k ∈ ks, k.Got u.all fill m') ∧ ∀ z, (∀ k ∈ ks, ¬ k.User z ∧ ¬ k.Inner z) → m' z = m z := by
    intro o ho
    obtain ⟨s1, e2, -, -, -, e3, e4⟩ := hall0 o ho
    have hlen : s1.mem.length = s.rq.length := by rw [e3, r2.len, hl]
    obtain ⟨ms, p1, p2, p3⟩ := postsAll_ok hs hks (fun ks hkm => ⟨fun k hkk => ((hk ks hkm).1 k hkk).1, (hk ks hkm).2.1⟩) s1.mem hlen
    refine ⟨s1, ms, e2, p1, flush_calls hs h hf hf' hd h1 hsm hraw ho e2, by rw [p2, hl], ?_⟩
    intro r ks m m' x1 x2 x3
    have hr : r < s.rq.length := by
      have := (List.getElem?_eq_some_iff.mp x2).1
      omega
    have hkp : List.Forall₂ (QueuedBy srt) ks s.rq[r] := by
      obtain ⟨g1, rfl⟩ := List.getElem?_eq_some_iff.mp x1
      exact List.Forall₂.get hks g1 hr
    obtain ⟨k1, k2, k3⟩ := hk ks (List.mem_of_getElem? x1)
    obtain ⟨m1, x4⟩ : ∃ m1, s1.mem[r]? = some m1 := ⟨_, List.getElem?_eq_getElem (by omega)⟩
    have hpo := p3 r ks s.rq[r] m1 m' x1 (List.getElem?_eq_getElem hr) x4 x3
    obtain ⟨s1', s2'⟩ := stands_of hs (dsets := a.dsets) r2.dsets hkp k1
    have hrr := e4 r (s.rq[r].map Pend.q) _ m m1 (by
      unfold PState.raw
      rw [List.getElem?_map, List.getElem?_eq_getElem hr]
      rfl) s2' x2 x4
    obtain ⟨m2, f1, f2, f3⟩ := posts_ok hs hkp (fun k hkk => (k1 k hkk).1) k2 m1
    rw [hpo, Res.ok.injEq] at f1
    subst f1
    constructor
    · intro k hkk i x p l hx hpp hll hkn j b hb
      obtain ⟨n, hn1, rfl⟩ := List.getElem_of_mem hkk
      have hn2 : n < s.rq[r].length := by rw [← hkp.length_eq]; exact hn1
      have hst : Stands a.dsets (RReq.now a.dsets s.rq[r][n].q) ks[n] := by
        have := List.Forall₂.get s1' (i := n) (by simpa using hn2) hn1
        simpa using this
      have hmem : RReq.now a.dsets s.rq[r][n].q ∈ (s.rq[r].map Pend.q).map (RReq.now a.dsets) :=
        List.mem_map_of_mem (List.mem_map_of_mem (List.getElem_mem hn2))
      have hxb : (RReq.now a.dsets s.rq[r][n].q).xbuf = s.rq[r][n].q.xbuf := by
        unfold RReq.now
        split <;> rfl
      obtain ⟨hil, hxe⟩ := List.getElem?_eq_some_iff.mp hx
      have hby : fileBytes m1 (s.rq[r][n].q.xbuf + ks[n].d.esize * i) ks[n].d.esize = l := by
        apply List.ext_getElem
        · rw [fileBytes_length, hll]
        · intro j' j1 j2
          have j3 : j' < ks[n].d.esize := by omega
          have := result_elems hs hall hrr hmem hst i hil j' j3
          rw [hxb] at this
          have hk2 := hkn j' j2
          simp only [fileBytes, List.getElem_map, List.getElem_range]
          rw [this, hxe]
          rw [List.getElem?_eq_getElem j2] at hk2
          unfold QCall.known at hk2
          unfold Verif.Spec.expectedElem
          cases he : Verif.Spec.lastElem u.all ks[n].c.did x j' with
          | some v =>
            rw [he] at hk2
            simpa using hk2
          | none =>
            rw [he] at hk2
            simp only at hk2 ⊢
            cases hfi : fill ks[n].c.did with
            | none => rw [hfi] at hk2; simp at hk2
            | some fv =>
              rw [hfi] at hk2
              simp only [Option.bind_some] at hk2
              simp [hk2]
      exact f2 n _ _ (List.getElem?_eq_getElem hn1) (List.getElem?_eq_getElem hn2) i p j b hpp (by rw [hby]; exact hb)
    · intro z hz
      rw [f3 z hz]
      refine hrr.out z ?_
      intro q hq hz2
      obtain ⟨k, hkk, hst⟩ := forall₂_mem_left s1' hq
      rw [hst.size] at hz2
      rcases hst.buf z hz2.1 hz2.2 with hx | hx
      · exact (hz k hkk).1 hx
      · exact (hz k hkk).2 hx
  have hrep : s.rq.map (fun _ => ([] : List Pend)) = List.replicate u.queue.length [] := by
    rw [List.map_const', hl]
  constructor
  · obtain ⟨s1, ms, e2, p1, _⟩ := key _ hs0
    rw [Res.ok.injEq] at e2
    subst e2
    refine ⟨⟨s0.st, s.rq.map (fun _ => []), ms⟩, .ok s0, hs0, ?_⟩
    rw [Res.ok_bind, p1, Res.ok_bind]
    rfl
  · rintro out ⟨o, ho, rfl⟩
    obtain ⟨s1, ms, rfl, p1, p2, p3, p4⟩ := key _ ho
    refine ⟨⟨s1.st, s.rq.map (fun _ => []), ms⟩, ?_, p2, hrep, p3, p4⟩
    rw [Res.ok_bind, p1, Res.ok_bind]
    rfl

/-- The typemap of the selection in memory. -/
theorem memType_ok {srt : List (List Nat) → List Nat} (hs : IsSort srt) {c : RCall} {d : DInfo} {xs : List (List Nat)} {as : List Nat}
    (hx : Xfer { d with esize := c.size d.esize } c.f c.m c.ubuf xs as) (hne : xs ≠ []) :
    ∃ t, memType srt (c.size d.esize) (c.m.resolve d c.f) = .ok t ∧ (wholeMem (c.m.resolve d c.f) = false →
      ∃ offs, t = some offs ∧ offs.length = xs.length * c.size d.esize) := by
  have hcases := memAt_cases hx
  rw [resolve_esize] at hcases
  obtain ⟨hl, hcases⟩ := hcases
  simp only at hcases
  rcases hcases with ⟨hw, ha⟩ | ⟨dims, sel, ys, r1, r2, r3, r4, r5, r6, r7, r8, r9⟩
  · refine ⟨none, ?_, by rw [hw]; simp⟩
    unfold wholeMem at hw
    unfold memType
    split at hw <;> rename_i e
    · rw [e]
    · rw [e]
    · simp at hw
  · obtain ⟨u, u1, u2, u3, u4⟩ := select_ok hs r6 r5
    have hyn : ys ≠ [] := by
      intro e
      rw [e] at r8
      exact hne (List.length_eq_zero_iff.mp r8.symm)
    have hms := memSel_of u3 r3 r4 r7 hyn
    refine ⟨some (cellOffs dims (c.size d.esize) (cellsB u.blocks)), ?_, fun _ => ⟨_, rfl, ?_⟩⟩
    · rw [r1]
      unfold memType
      split
      · rename_i e; cases e
      · rename_i e
        cases e
        exact absurd rfl (r2 _)
      · rename_i e
        cases e
        rw [u1, Res.ok_bind, memOffs_ok hms, Res.ok_bind, u2, Res.ok_bind]
        rfl
    · rw [cellOffs_length, cellsB_length hms.rank, u3.count_le.2, r8, Nat.mul_comm]

/-- **C83: the call.**  H5Dread with a buffered transfer list returns without an error, whatever the memory type; it queues something if and only
if an element is selected. -/
theorem C83_call {srt : List (List Nat) → List Nat} (hs : IsSort srt) (st : FState) {c : RCall} {d : DInfo} (hd : st.dsets[c.did]? = some (some d))
    {xs : List (List Nat)} {as : List Nat} (hx : Xfer { d with esize := c.size d.esize } c.f c.m c.ubuf xs as) :
    (xs = [] → st.h5dreadQ srt c = .ok none) ∧
    (xs ≠ [] → ∃ p, st.h5dreadQ srt c = .ok (some p) ∧ QueuedBy srt ⟨c, d, xs, as⟩ p) := by
  obtain ⟨s, e1, e2, hex, hso⟩ := select_ok hs hx.chosen hx.supp
  rw [fileSpace_esize] at e1
  have hnd : ({ d with esize := c.size d.esize } : DInfo).ndim = d.ndim := rfl
  rw [hnd] at e1 e2 hex
  constructor
  · intro h0
    unfold FState.h5dreadQ
    rw [hd]
    simp only [resolve_eq]
    rw [e1, Res.ok_bind, if_pos ((nsel_zero hex).mpr h0)]
    rfl
  · intro h0
    obtain ⟨t, ht, _⟩ := memType_ok hs hx h0
    have hp : ∃ p, st.h5dreadQ srt c = .ok (some p) := by
      unfold FState.h5dreadQ
      rw [hd]
      simp only [resolve_eq]
      rw [e1, Res.ok_bind, if_neg (fun h => h0 ((nsel_zero hex).mp h))]
      split
      · exact ⟨_, rfl⟩
      · rw [ht, Res.ok_bind]
        exact ⟨_, rfl⟩
    obtain ⟨p, hp⟩ := hp
    exact ⟨p, hp, st, hd, hp⟩

/-- **C83: the queue.**  H5Dread by process `r` puts the call behind those that the process has queued; the other queues, the file and the memory
stay as they are. -/
theorem C83_queue {srt : List (List Nat) → List Nat} (hs : IsSort srt) (s : PState) {kss : List (List QCall)}
    (hks : List.Forall₂ (List.Forall₂ (QueuedBy srt)) kss s.rq) {k : QCall} (hd : s.st.dsets[k.c.did]? = some (some k.d))
    (hx : Xfer { k.d with esize := k.size } k.c.f k.c.m k.c.ubuf k.xs k.as) (hne : k.xs ≠ []) (r : Nat) :
    ∃ s', s.read srt r k.c = .ok s' ∧ s'.st = s.st ∧ s'.mem = s.mem ∧
      List.Forall₂ (List.Forall₂ (QueuedBy srt)) (kss.modify r (· ++ [k])) s'.rq := by
  obtain ⟨p, e, q⟩ := (C83_call hs s.st hd (c := k.c) hx).2 hne
  refine ⟨{ s with rq := s.rq.modify r (· ++ [p]) }, by simp [PState.read, e], rfl, rfl, ?_⟩
  exact forall₂_modify (fun _ _ h => List.rel_append h (.cons q .nil)) hks r

theorem posts_bad {p : Pend} (hb : ∀ mem, p.post mem = .err) : ∀ {ps : List Pend}, p ∈ ps → ∀ mem mem', posts ps mem ≠ .ok mem' := by
  intro ps
  induction ps with
  | nil => simp
  | cons q ps ih =>
    intro hp mem mem' h
    obtain ⟨m1, h1, h2⟩ := Res.bind_ok h
    rcases List.mem_cons.mp hp with rfl | hp
    · rw [hb] at h1
      cases h1
    · exact ih hp _ _ h2

theorem postsAll_bad {p : Pend} (hb : ∀ mem, p.post mem = .err) : ∀ {pss : List (List Pend)}, p ∈ pss.flatten → ∀ ms ms', postsAll pss ms ≠ .ok ms' := by
  intro pss
  induction pss with
  | nil => simp
  | cons ps pss ih =>
    intro hp ms ms' h
    cases ms with
    | nil => cases h
    | cons m ms =>
      obtain ⟨m1, h1, h2⟩ := Res.bind_ok h
      obtain ⟨m2, h3, h4⟩ := Res.bind_ok h2
      rw [List.flatten_cons, List.mem_append] at hp
      rcases hp with hp | hp
      · exact posts_bad hb hp _ _ h1
      · exact ih hp _ _ h3

/-- **C83 is violated: wider types.**  The call is accepted (`C83_call`), but once a read into a memory selection with a memory type wider than
that of the dataset is queued, no H5Fflush succeeds any more, whatever else is queued by any process. -/
theorem C83_wide_violated {srt : List (List Nat) → List Nat} (hs : IsSort srt) {k : QCall} {p : Pend} (hq : QueuedBy srt k p)
    (hx : Xfer { k.d with esize := k.size } k.c.f k.c.m k.c.ubuf k.xs k.as) (hne : k.xs ≠ []) (hw : ¬ k.Whole) (hl : k.d.esize < k.size)
    (hst : k.c.xbuf ≠ k.c.ubuf) (s : PState) (hp : p ∈ s.rq.flatten) (fuel : Nat) (fill : Nat → Option (List Byte)) (doff mdoff : Nat)
    (s' : PState) : ¬ s.Flush fuel fill doff mdoff (.ok s') := by
  have hpost : ∀ mem, p.post mem = .err := by
    obtain ⟨st, hd, hp⟩ := hq
    obtain ⟨t, ht, htl⟩ := memType_ok hs (c := k.c) (d := k.d) hx hne
    have hwf : wholeMem (k.c.m.resolve k.d k.c.f) = false := by
      cases h : wholeMem (k.c.m.resolve k.d k.c.f) with
      | false => rfl
      | true => exact absurd ((whole_iff k).mp h) hw
    obtain ⟨offs, rfl, hol⟩ := htl hwf
    obtain ⟨sl, e1, e2, hex, hso⟩ := select_ok hs hx.chosen hx.supp
    rw [fileSpace_esize] at e1
    have hnd : ({ k.d with esize := k.size } : DInfo).ndim = k.d.ndim := rfl
    rw [hnd] at e1 e2 hex
    have hsum : (sl.blocks.map Blk.size).sum = k.xs.length := hex.count_le.2
    unfold FState.h5dreadQ at hp
    rw [hd] at hp
    simp only [resolve_eq] at hp
    rw [e1, Res.ok_bind, if_neg (fun h => hne ((nsel_zero hex).mp h)), hsum, if_neg (by rw [hwf]; simp), ht, Res.ok_bind] at hp
    simp only [Res.pure_eq, Res.ok.injEq, Option.some.injEq] at hp
    intro mem
    rw [← hp]
    unfold Pend.post
    simp only
    rw [if_neg hst]
    unfold mpiUnpack
    rw [if_pos]
    rw [hol, call_size]
    exact Nat.mul_lt_mul_of_pos_left hl (List.length_pos_iff.mpr hne)
  rintro ⟨o, ho, e⟩
  obtain ⟨s1, h1, h2⟩ := Res.bind_ok e.symm
  obtain ⟨ms, h3, h4⟩ := Res.bind_ok h2
  exact postsAll_bad hpost hp _ _ h3

/-! ### A case that meets the hypotheses

The file of `ap_case`.  Three points are read into three elements of a 2 × 3 array, as single bytes (the low byte of the element), and the
whole of row 3 is read as elements of 4 bytes. -/

def qaLow : Conv := ⟨1, fun l => l.take 1⟩

def qaExt : Conv := ⟨4, fun l => l ++ [0, 0]⟩

def qaK1 : QCall := ⟨⟨0, apF', apM', 2000, 5000, some qaLow⟩, apD, [[0, 0], [2, 2], [2, 5]], [2001, 2003, 2005]⟩

def qaF2 : FArg := .space [4, 6] (.points [[3, 0], [3, 1], [3, 2]])

def qaK2 : QCall := ⟨⟨0, qaF2, .block, 3000, 6000, some qaExt⟩, apD, [[3, 0], [3, 1], [3, 2]], [3000, 3004, 3008]⟩

theorem qa1_ok : qaK1.OK where
  xfer := {
    chosen := ap_read.chosen
    supp := ap_read.supp
    within := ap_read.within
    dims := ap_read.dims
    es := by decide
    mem := ⟨[[0, 1], [1, 0], [1, 2]], ⟨by simp, rfl⟩, by simp, rfl, by decide +kernel⟩
    ok := .inr ⟨by simp, by simp, by simp, by simp [Supported, RowLt]⟩ }
  ne := by simp [qaK1]
  es := by decide
  conv := by
    intro v hv l hl
    cases hv
    simp [qaLow, qaK1, apD] at hl ⊢
    omega
  wide := .inr (by decide)
  start := by decide
  own := by
    rintro z ⟨p, hp, h1, h2⟩ ⟨h3, _⟩
    simp only [qaK1, List.mem_cons, List.not_mem_nil, or_false] at hp h3
    simp only [QCall.size, qaK1, qaLow] at h2
    omega

theorem qa2_ok : qaK2.OK where
  xfer := {
    chosen := by refine ⟨?_, rfl⟩; simp [qaK2, apD, DInfo.ndim]
    supp := by simp [qaK2, qaF2, Verif.Spec.fileSpace, Supported, RowLt]
    within := by simp [qaK2, apD]
    dims := by simp [qaK2, apD]
    es := by decide
    mem := by
      show qaK2.as = _
      decide +kernel
    ok := trivial }
  ne := by simp [qaK2]
  es := by decide
  conv := by
    intro v hv l hl
    cases hv
    simp [qaExt, qaK2, apD] at hl ⊢
    omega
  wide := .inl trivial
  start := by decide
  own := by
    rintro z ⟨p, hp, h1, h2⟩ ⟨h3, _⟩
    simp only [qaK2, List.mem_cons, List.not_mem_nil, or_false] at hp h3
    simp only [QCall.size, qaK2, qaExt] at h2
    omega

theorem qa_apart : qaK1.Apart qaK2 := by
  have h1 : ∀ z, qaK1.User z ∨ qaK1.Inner z → z < 3000 ∨ (5000 ≤ z ∧ z < 5006) := by
    rintro z (⟨p, hp, h1, h2⟩ | ⟨h3, h4⟩)
    · simp only [qaK1, List.mem_cons, List.not_mem_nil, or_false] at hp
      simp only [QCall.size, qaK1, qaLow] at h2
      omega
    · have : qaK1.c.xbuf + qaK1.xs.length * max qaK1.size qaK1.d.esize = 5006 := by decide
      have : qaK1.c.xbuf = 5000 := rfl
      omega
  have h2 : ∀ z, qaK2.User z ∨ qaK2.Inner z → (3000 ≤ z ∧ z < 3012) ∨ 6000 ≤ z := by
    rintro z (⟨p, hp, h1, h2⟩ | ⟨h3, h4⟩)
    · simp only [qaK2, List.mem_cons, List.not_mem_nil, or_false] at hp
      simp only [QCall.size, qaK2, qaExt] at h2
      omega
    · have : qaK2.c.xbuf = 6000 := rfl
      omega
  rintro z ⟨z1, z2⟩
  have := h1 z z1
  have := h2 z z2
  omega

theorem qa_sep : qaK1.Sep qaK2 := fun _ => .inl (by simp [qaK1, qaK2, RowLt])

/-- Both reads are queued behind the write, in any configuration; H5Fflush performs the write and both reads. -/
example {srt : List (List Nat) → List Nat} (hs : IsSort srt) (cfg : Cfg) (compact : Bool) (mbuf : Option Nat) (mem m : Mem) :
    ∃ (s s1 s2 : PState) (doff mdoff : Nat) (st1 : FState), s.read srt 0 qaK1.c = .ok s1 ∧ s1.read srt 0 qaK2.c = .ok s2 ∧ s2.mem = [m] ∧
      s2.st.prepare true doff mdoff = .ok st1 ∧ (Small st1 → ∃ n, ∀ fuel ≥ n, ∀ fill, ∃ s3 m', s2.Flush fuel fill doff mdoff (.ok s3) ∧
        s3.mem = [m'] ∧
        qaK1.Got [⟨0, apD, (Verif.Spec.fileSpace apD apF).2, apXs, bytesAt 2 mem apAs⟩] fill m' ∧
        qaK2.Got [⟨0, apD, (Verif.Spec.fileSpace apD apF).2, apXs, bytesAt 2 mem apAs⟩] fill m') := by
  obtain ⟨st, h⟩ := ap_case hs cfg compact mbuf mem
  have hds : st.dsets[0]? = some (some apD) := by
    obtain ⟨a, r1, r2⟩ := calls_reach hs h
    obtain ⟨g, inv⟩ := reach_inv r1
    rw [inv.dsets, r2.dsets]
    rfl
  obtain ⟨p1, e1, q1⟩ := (C83_call hs st (c := qaK1.c) (d := apD) hds qa1_ok.xfer).2 qa1_ok.ne
  obtain ⟨p2, e2, q2⟩ := (C83_call hs st (c := qaK2.c) (d := apD) hds qa2_ok.xfer).2 qa2_ok.ne
  obtain ⟨n, hn⟩ := fresh_exists st
  obtain ⟨st1, k1, k2⟩ := C83_flush_partial hs (s := ⟨st, [[p1, p2]], [m]⟩) h rfl rfl (by simp) (kss := [[qaK1, qaK2]])
    (.cons (.cons q1 (.cons q2 .nil)) .nil) (by
      intro ks hks
      obtain rfl := List.mem_singleton.mp hks
      refine ⟨?_, by simpa using qa_apart, by simpa using qa_sep⟩
      intro k hk
      have ho : ∀ k : QCall, k.c.did = 0 → k.d = apD → k.Open cfg st.compact
          ⟨[some apD], [], [[⟨0, apD, (Verif.Spec.fileSpace apD apF).2, apXs, bytesAt 2 mem apAs⟩]]⟩ := by
        intro k h1 h2
        exact ⟨⟨apD, by rw [h1]; rfl, by rw [h2], by rw [h2]⟩, indexed_one (by simp [UFile.all])⟩
      rcases List.mem_cons.mp hk with rfl | hk
      · exact ⟨qa1_ok, ho _ rfl rfl⟩
      · obtain rfl := List.mem_singleton.mp hk
        exact ⟨qa2_ok, ho _ rfl rfl⟩)
    (hn n (Nat.le_refl _)) (hn (n + _) (Nat.le_add_right _ _)) (Nat.le_refl _) (.inr (by simp [UFile.all]))
  refine ⟨⟨st, [[]], [m]⟩, ⟨st, [[p1]], [m]⟩, ⟨st, [[p1, p2]], [m]⟩, _, _, st1, ?_, ?_, rfl, k1, fun hsm => ?_⟩
  · unfold PState.read
    rw [e1, Res.ok_bind]
    rfl
  · unfold PState.read
    rw [e2, Res.ok_bind]
    rfl
  · obtain ⟨n', hn'⟩ := k2 hsm
    refine ⟨n', fun fuel hfu fill => ?_⟩
    obtain ⟨⟨s3, f1⟩, f2⟩ := hn' fuel hfu fill
    obtain ⟨s3', e, _, _, hlen, hg⟩ := f2 _ f1
    rw [Res.ok.injEq] at e
    subst e
    match hm : s3.mem, hlen with
    | [m'], _ =>
      obtain ⟨g1, _⟩ := hg 0 [qaK1, qaK2] m m' rfl rfl (by rw [hm]; rfl)
      exact ⟨s3, m', f1, hm, g1 qaK1 (by simp), g1 qaK2 (by simp)⟩

/-- What arrives: the third element is the low byte of the eighth element written. -/
example (mem m' : Mem) (fill : Nat → Option (List Byte))
    (h : qaK1.Got [⟨0, apD, (Verif.Spec.fileSpace apD apF).2, apXs, bytesAt 2 mem apAs⟩] fill m') : m' 2005 = mem 1030 := by
  refine h 2 [2, 5] 2005 [mem 1030, mem 1031] rfl rfl rfl ?_ 0 _ rfl
  intro j hj
  match j, hj with
  | 0, _ => rfl
  | 1, _ => rfl

/-- A read into a memory selection with elements of 4 bytes, as in `C83_wide_violated`. -/
def qaK3 : QCall := ⟨⟨0, apF', apM', 2000, 5000, some qaExt⟩, apD, [[0, 0], [2, 2], [2, 5]], [2004, 2012, 2020]⟩

example {srt : List (List Nat) → List Nat} (hs : IsSort srt) (st : FState) (hd : st.dsets[0]? = some (some apD)) (m : Mem) :
    ∃ s : PState, PState.read srt 0 qaK3.c ⟨st, [[]], [m]⟩ = .ok s ∧
      ∀ fuel fill doff mdoff s', ¬ s.Flush fuel fill doff mdoff (.ok s') := by
  have hx : Xfer { qaK3.d with esize := qaK3.size } qaK3.c.f qaK3.c.m qaK3.c.ubuf qaK3.xs qaK3.as := {
    chosen := ap_read.chosen
    supp := ap_read.supp
    within := ap_read.within
    dims := ap_read.dims
    es := by decide
    mem := ⟨[[0, 1], [1, 0], [1, 2]], ⟨by simp, rfl⟩, by simp, rfl, by decide +kernel⟩
    ok := .inr ⟨by simp, by simp, by simp, by simp [Supported, RowLt]⟩ }
  obtain ⟨p, e, q⟩ := (C83_call hs st (c := qaK3.c) (d := apD) hd hx).2 (by simp [qaK3])
  refine ⟨⟨st, [[p]], [m]⟩, ?_, fun fuel fill doff mdoff s' => ?_⟩
  · unfold PState.read
    rw [e, Res.ok_bind]
    rfl
  · refine C83_wide_violated hs q hx (by simp [qaK3]) ?_ (by decide) (by decide) _ (by simp) _ _ _ _ _
    rintro ⟨n, hn⟩
    cases hn

end Verif.Props
