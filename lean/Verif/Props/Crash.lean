import Verif.Lemmas.Crash
import Verif.Lemmas.Script
import Verif.Model.LogNames
import Verif.Props.Repeat

/-
C20: what survives the death of all processes. C58: whether the file can be written afterwards.
-/

namespace Verif.Props

open Spec (AW AFile WriteOK MayWrite Fresh Small Indexable Served ReqsOK ReqsWF Viewable Repeats Reach Returns Session LeftBehind Life)

/-! ### C20 -/

/-- **C20, partial: writes of sessions that closed the file.** A file is opened, written and closed or abandoned by dying processes
any number of times; a session may die at any point, also in the middle of a flush. In every session a read returns the writes of
all sessions so far that closed the file and what the present session has flushed, and nothing else; the size of the dead
sessions' flushes does not matter. Missing: flushed writes of a session that dies (`C20_crash_violated`), sessions that create a
dataset and die (`C39_crash_violated`). -/
theorem C20_life_partial (cfg : Cfg) {st0 st : FState} {a0 a : AFile} (h0 : Life cfg st0 a0)
    (h : Session cfg st0 a0 st a) {qs : List RReq} (hi : Served cfg st.compact a qs) 
    (hq : ReqsWF st.compact a.dsets qs) (hv : Viewable qs) (hp : Repeats a.done qs) {r : Nat}
    (hr : r < a.queue.length) (he : a.epoch.flatten = []) (hm : st.mbuf = none ∨ a.done ≠ []) :
    Returns st r qs a.done := by
  obtain ⟨g, inv⟩ := session_inv h (life_inv h0).1
  refine ⟨g.mdx.flatten.length, fun fuel hf fill mem => ?_⟩
  obtain ⟨h1, h2, h3⟩ := read_file inv hi hq hr he hm hf (fill := fill) (mem := mem)
  refine ⟨h1 hv, fun out hout => ?_⟩
  obtain ⟨mem', rfl⟩ := h2 hv out hout
  exact ⟨mem', rfl, h3 hp mem' hout⟩

/-- **C20, partial: the case of one crash.** A session writes and closes the file, the next one dies at any point. Whoever opens the
file then reads all writes of the first session, and none of the second. -/
theorem C20_closed_partial (cfg : Cfg) {st st1 : FState} {a : AFile} (h : Reach cfg st a)
    {doff mdoff : Nat} (hf : Fresh st doff) (hf' : Fresh st mdoff) (hd : doff + Spec.queued a ≤ mdoff)
    (hc : st.close doff mdoff = .ok st1) (hsm : Small st1)
    {np : Nat} (hn0 : 0 < np) (hn1 : np < 2 ^ 31) {compact : Bool} {mbuf : Option Nat} {gone : Nat → Bool}
    {st2 st3 : FState} {a2 : AFile}
    (hs : Session cfg (st1.reopen np compact mbuf gone) (a.flush.metaflush.reopen np gone) st2 a2)
    (hnew : a2.dsets.length = a.dsets.length) (hl : LeftBehind (st1.reopen np compact mbuf gone) st2 st3)
    {np' : Nat} (hn0' : 0 < np') (hn1' : np' < 2 ^ 31) {compact' : Bool} {gone' : Nat → Bool}
    {dsets : DSets} (hds : dsets = (st3.reopen np' compact' none gone').dsets)
    {qs : List RReq} (hi : Served cfg compact' { a.flush.metaflush with dsets := dsets } qs) 
    (hq : ReqsWF compact' dsets qs) (hv : Viewable qs) (hp : Repeats (a.done ++ a.queue.flatten) qs) {r : Nat}
    (hr : r < np') :
    Returns (st3.reopen np' compact' none gone') r qs (a.done ++ a.queue.flatten) := by
  obtain ⟨s0, b0, i1, i2⟩ := reach_session h
  have i3 := Life.close doff mdoff np compact mbuf gone i1 i2 hf hf' hd hn0 hn1 hc hsm
  have i4 := Life.die np' compact' none gone' i3 hs (by simpa [AFile.reopen, AFile.flush, AFile.metaflush] using hnew) hl
    hn0' hn1'
  subst hds
  exact C20_life_partial cfg i4 .start ⟨hi.build, hi.meas, hi.leg, hi.recs⟩ hq hv hp
    (by simpa [AFile.reopen] using hr) (reopen_epoch _ _ _) (Or.inl rfl)

/-- One process writes a dataset and closes the file. The next session overwrites it, flushes and dies, with rubbish behind what
has been allocated. -/
def lfW' : AW := { nxW with data := (List.range 10).map (fun i => UInt8.ofNat (i + 100)) }

theorem lf_ok (cfg : Cfg) : WriteOK cfg lfW' := by
  obtain ⟨h1, h2, h3, h4, h5, h6, h7, h8⟩ := nx_ok cfg
  exact ⟨Spec.AW.Exact.sized rfl, by decide, by decide, h4, h5, h6, by intro _ h; simp [lfW', nxW] at h, h8⟩

/-- Hypotheses of `C20_closed_partial` and, with the first session of the last life, of `C20_life_partial`. -/
example (enc share compact : Bool) : ∃ st st1 st2 st3 a2, Reach ⟨enc, share⟩ st (oneFile nxW) ∧
    Fresh st 1000 ∧ Fresh st 2000 ∧ 1000 + Spec.queued (oneFile nxW) ≤ 2000 ∧
    st.close 1000 2000 = .ok st1 ∧ Small st1 ∧
    Session ⟨enc, share⟩ (st1.reopen 1 compact none (fun _ => false))
      ((oneFile nxW).flush.metaflush.reopen 1 (fun _ => false)) st2 a2 ∧
    a2.done = [nxW, lfW'] ∧ a2.dsets.length = (oneFile nxW).dsets.length ∧
    LeftBehind (st1.reopen 1 compact none (fun _ => false)) st2 st3 ∧ st3.disk ≠ st2.disk ∧
    Served ⟨enc, share⟩ compact { (oneFile nxW).flush.metaflush with
      dsets := (st3.reopen 2 compact none (fun _ => false)).dsets } dupQ ∧
    ReqsWF compact (st3.reopen 2 compact none (fun _ => false)).dsets dupQ ∧ Viewable dupQ ∧
    Repeats ((oneFile nxW).done ++ (oneFile nxW).queue.flatten) dupQ := by
  have h : ∀ enc share compact, okWith (fun st => okWith (fun st1 =>
      okWith (fun s => okWith (fun st2 => decide (Small st1 ∧ Small st2 ∧ Fresh st 1000 ∧ Fresh st 2000 ∧
        Fresh s 3000 ∧ Fresh st2 4000 ∧ st1.dsets = [some nxD] ∧ (st1.reopen 1 compact none (fun _ => false)).lds = st1.lds ∧
        (∀ e ∈ st1.lds, e ∈ st2.lds) ∧ st2.dsets = [some nxD] ∧ st2.disk 5000 = 0))
        (s.fileFlush 3000))
      ((st1.reopen 1 compact none (fun _ => false)).write 0 0 lfW'.bs lfW'.data))
      (st.close 1000 2000)) (oneRun ⟨enc, share⟩ compact nxW) = true := by decide +kernel
  obtain ⟨st, h1, h2⟩ := okWith_iff (h enc share compact)
  obtain ⟨st1, h3, h4⟩ := okWith_iff h2
  obtain ⟨s, h5, h6⟩ := okWith_iff h4
  obtain ⟨st2, h7, h8⟩ := okWith_iff h6
  rw [decide_eq_true_eq] at h8
  obtain ⟨a1, a2, a3, a4, a5, a6, a7, a8, a9, a10, a11⟩ := h8
  have s1 : Session ⟨enc, share⟩ (st1.reopen 1 compact none (fun _ => false))
      ((oneFile nxW).flush.metaflush.reopen 1 (fun _ => false)) s
      (((oneFile nxW).flush.metaflush.reopen 1 (fun _ => false)).write 0 lfW') :=
    Session.write 0 lfW' .start (mayWrite_of (lf_ok _) rfl (p := []) (q := []) rfl rfl (by decide) (by simp)) h5
  have s2 := Session.flush 3000 s1 a5 h7 a2
  refine ⟨st, st1, st2, { st2 with disk := fun x => if x < 4000 then st2.disk x else 77 }, _,
    one_reach (nx_ok _) rfl h1, a3, a4, by decide, h3, a1, s2, rfl, rfl, ⟨⟨4000, a6, ?_⟩, ?_, fun e he => he, rfl, rfl, rfl, ?_, ?_, ?_⟩,
    ?_, ?_, ?_, dup_view, dup_repeats⟩
  · intro x hx
    simp [hx]
  · rw [a8]; exact a9
  · simp [FState.reopen, a7, a10]
  · intro i hi
    simp only [FState.reopen, a7, Bool.false_eq_true, if_false] at hi
    match i with
    | 0 => simp at hi
    | i + 1 => simp at hi
  · intro i d hi
    simp only [FState.reopen, a7, Bool.false_eq_true, if_false] at hi
    match i with
    | 0 =>
      simp at hi
      exact ⟨d.dims, rfl, by simp [a10, hi]⟩
    | i + 1 => simp at hi
  · intro hc
    have := congrFun hc 5000
    simp [a11] at this
  · have e : (FState.reopen 2 compact none (fun _ => false)
        { st2 with disk := fun x => if x < 4000 then st2.disk x else 77 }).dsets = (oneFile nxW).dsets := by
      simp [FState.reopen, a10]; rfl
    rw [e]
    exact (dup_indexable _ _).served (dup_request _)
  · have e : (FState.reopen 2 compact none (fun _ => false)
        { st2 with disk := fun x => if x < 4000 then st2.disk x else 77 }).dsets = (oneFile nxW).dsets := by
      simp [FState.reopen, a10]; rfl
    rw [e]
    exact dup_request _

/-! ### C58 -/

/-- What a session does to the log datasets. -/
inductive LogEv where
  | flush (full : Bool)
  | metaflush (full : Bool)
deriving DecidableEq

def LogEv.run : LogEv → LogDir → Res LogDir
  | .flush b, s => s.flush b
  | .metaflush b, s => s.metaflush b

def logRun : List LogEv → LogDir → Res LogDir
  | [], s => .ok s
  | e :: es, s => (e.run s).bind (logRun es)

/-- The log group as found by those who open the file: after its creation, after a session that closed the file, or after a
session that died and whose log datasets had not reached the file. -/
inductive LogLife : LogDir → Prop
  | create : LogLife LogDir.create
  | close {s s1 s2} (es : List LogEv) (full entries : Bool) : LogLife s → logRun es s.load = .ok s1 →
      s1.close full entries = .ok s2 → LogLife s2
  | die {s s1} (es : List LogEv) : LogLife s → logRun es s.load = .ok s1 → LogLife s

/-- The numbers in use are those below the counter. -/
def Counted (l : LogNames) : Prop := l.names = List.range l.count

theorem counted_add {l : LogNames} (h : Counted l) : ∃ l', l.add = .ok l' ∧ Counted l' ∧ l'.attr = l.attr := by
  refine ⟨{ l with names := l.names ++ [l.count], count := l.count + 1 }, ?_, ?_, rfl⟩
  · unfold LogNames.add
    rw [if_neg]
    rw [h]; simp
  · unfold Counted at *
    simp only
    rw [h, List.range_succ]

theorem counted_ev {s : LogDir} (h1 : Counted s.data) (h2 : Counted s.md) (e : LogEv) :
    ∃ s', e.run s = .ok s' ∧ Counted s'.data ∧ Counted s'.md := by
  cases e with
  | flush b =>
    cases b with
    | false => exact ⟨s, rfl, h1, h2⟩
    | true =>
      obtain ⟨l, e1, e2, _⟩ := counted_add h1
      refine ⟨{ s with data := l }, ?_, e2, h2⟩
      simp [LogEv.run, LogDir.flush, e1, Res.bind]
  | metaflush b =>
    cases b with
    | false => exact ⟨s, rfl, h1, h2⟩
    | true =>
      obtain ⟨l, e1, e2, _⟩ := counted_add h2
      refine ⟨{ s with md := l }, ?_, h1, e2⟩
      simp [LogEv.run, LogDir.metaflush, e1, Res.bind]

theorem counted_run : ∀ (es : List LogEv) {s : LogDir}, Counted s.data → Counted s.md →
    ∃ s', logRun es s = .ok s' ∧ Counted s'.data ∧ Counted s'.md
  | [], s, h1, h2 => ⟨s, rfl, h1, h2⟩
  | e :: es, s, h1, h2 => by
    obtain ⟨s1, e1, i1, i2⟩ := counted_ev h1 h2 e
    obtain ⟨s2, e2, j1, j2⟩ := counted_run es i1 i2
    exact ⟨s2, by simp [logRun, e1, Res.bind, e2], j1, j2⟩

theorem counted_close {s : LogDir} (h1 : Counted s.data) (h2 : Counted s.md) (full entries : Bool) :
    ∃ s', s.close full entries = .ok s' ∧ Counted s'.load.data ∧ Counted s'.load.md := by
  obtain ⟨s1, e1, i1, i2⟩ := counted_ev h1 h2 (.flush full)
  obtain ⟨s2, e2, j1, j2⟩ := counted_ev i1 i2 (.metaflush entries)
  simp only [LogEv.run] at e1 e2
  exact ⟨⟨s2.data.save, s2.md.save⟩, by simp [LogDir.close, e1, e2, Res.bind], j1, j2⟩

/-- **C58, partial: no log dataset of a dead session is in the file.** Whatever sessions have used the file, every flush of data and
metadata in a new session succeeds, and so does the close. -/
theorem C58_write_partial {s : LogDir} (h : LogLife s) (es : List LogEv) (full entries : Bool) :
    ∃ s1 s2, logRun es s.load = .ok s1 ∧ s1.close full entries = .ok s2 := by
  have inv : ∀ {s : LogDir}, LogLife s → Counted s.load.data ∧ Counted s.load.md := by
    intro s h
    induction h with
    | create => exact ⟨rfl, rfl⟩
    | close es full entries _ h1 h2 ih =>
      obtain ⟨s1, e1, i1, i2⟩ := counted_run es ih.1 ih.2
      rw [h1, Res.ok.injEq] at e1
      subst e1
      obtain ⟨s2, e2, j1, j2⟩ := counted_close i1 i2 full entries
      rw [h2, Res.ok.injEq] at e2
      subst e2
      exact ⟨j1, j2⟩
    | die _ _ _ ih => exact ih
  obtain ⟨i1, i2⟩ := inv h
  obtain ⟨s1, e1, j1, j2⟩ := counted_run es i1 i2
  obtain ⟨s2, e2, _⟩ := counted_close j1 j2 full entries
  exact ⟨s1, s2, e1, e2⟩

/-- A life of a file with two sessions that closed it and one that died. -/
example : ∃ s, LogLife s ∧ s.data.names = [0, 1, 2] ∧ s.md.names = [0, 1] := by
  refine ⟨⟨⟨[0, 1, 2], 3, 3⟩, ⟨[0, 1], 2, 2⟩⟩, ?_, rfl, rfl⟩
  have h1 : LogLife ⟨⟨[0, 1], 2, 2⟩, ⟨[0], 1, 1⟩⟩ := .close [.flush true] true true .create rfl rfl
  have h2 : LogLife ⟨⟨[0, 1], 2, 2⟩, ⟨[0], 1, 1⟩⟩ := .die [.flush true] h1 rfl
  exact .close [.flush true, .metaflush true] false false h2 rfl rfl

/-- A session that has the number in the attribute taken. -/
def Taken (s : LogDir) : Prop := s.data.attr ∈ s.data.names

theorem add_mono {l l' : LogNames} (h : l.add = .ok l') : l'.attr = l.attr ∧ ∀ n ∈ l.names, n ∈ l'.names := by
  unfold LogNames.add at h
  split at h
  · simp at h
  · simp only [Res.ok.injEq] at h
    rw [← h]
    exact ⟨rfl, fun n hn => by simp [hn]⟩

theorem ev_mono {s s' : LogDir} {e : LogEv} (h : e.run s = .ok s') :
    s'.data.attr = s.data.attr ∧ ∀ n ∈ s.data.names, n ∈ s'.data.names := by
  cases e with
  | flush b =>
    cases b with
    | false =>
      simp only [LogEv.run, LogDir.flush, Bool.false_eq_true, if_false, Res.ok.injEq] at h
      rw [← h]; exact ⟨rfl, fun _ hn => hn⟩
    | true =>
      simp only [LogEv.run, LogDir.flush, if_true] at h
      obtain ⟨l, e1, e2⟩ := Res.bind_ok h
      simp only [Res.ok.injEq] at e2
      rw [← e2]; exact add_mono e1
  | metaflush b =>
    cases b with
    | false =>
      simp only [LogEv.run, LogDir.metaflush, Bool.false_eq_true, if_false, Res.ok.injEq] at h
      rw [← h]; exact ⟨rfl, fun _ hn => hn⟩
    | true =>
      simp only [LogEv.run, LogDir.metaflush, if_true] at h
      obtain ⟨l, e1, e2⟩ := Res.bind_ok h
      simp only [Res.ok.injEq] at e2
      rw [← e2]; exact ⟨rfl, fun _ hn => hn⟩

/-- In a state where the number of the next data dataset is taken, only sessions without data succeed. -/
theorem taken_run : ∀ (es : List LogEv) {s s' : LogDir}, s.data.count ∈ s.data.names → logRun es s = .ok s' →
    LogEv.flush true ∉ es ∧ s'.data = s.data
  | [], s, s', _, h => by
    simp only [logRun, Res.ok.injEq] at h
    rw [h]; simp
  | e :: es, s, s', ht, h => by
    obtain ⟨s1, e1, e2⟩ := Res.bind_ok (x := e.run s) h
    have h1 : e ≠ .flush true ∧ s1.data = s.data := by
      cases e with
      | flush b =>
        cases b with
        | false =>
          simp only [LogEv.run, LogDir.flush, Bool.false_eq_true, if_false, Res.ok.injEq] at e1
          rw [← e1]; simp
        | true => simp [LogEv.run, LogDir.flush, LogNames.add, ht, Res.bind] at e1
      | metaflush b =>
        cases b with
        | false =>
          simp only [LogEv.run, LogDir.metaflush, Bool.false_eq_true, if_false, Res.ok.injEq] at e1
          rw [← e1]; simp
        | true =>
          simp only [LogEv.run, LogDir.metaflush, if_true] at e1
          obtain ⟨l, _, e4⟩ := Res.bind_ok e1
          simp only [Res.ok.injEq] at e4
          rw [← e4]; simp
    obtain ⟨i1, i2⟩ := taken_run es (by rw [h1.2]; exact ht) e2
    refine ⟨?_, i2.trans h1.2⟩
    simp only [List.mem_cons, not_or]
    exact ⟨fun hc => h1.1 hc.symm, i1⟩

/-- What those who open the file find from some moment on, after sessions that close it, fail or die. A session that ends without
closing the file leaves the attribute as it was and removes no log dataset. -/
inductive LogAfter (s0 : LogDir) : LogDir → Prop
  | start : LogAfter s0 s0
  | close {s s1 s2} (es : List LogEv) (full entries : Bool) : LogAfter s0 s → logRun es s.load = .ok s1 →
      s1.close full entries = .ok s2 → LogAfter s0 s2
  | stop {s s1 s'} (es : List LogEv) : LogAfter s0 s → logRun es s.load = .ok s1 →
      s'.data.attr = s.data.attr → (∀ n ∈ s.data.names, n ∈ s'.data.names) → LogAfter s0 s'

/-- **C58 is violated.** A session flushes data and dies, and its log dataset is in the file.
Then no data can be added to the file any more: in every later session, whatever the sessions in between have done, every
flush of data fails, and closing with data to flush fails. -/
theorem C58_write_violated {s s1 s2 : LogDir} (es : List LogEv) (hes : LogEv.flush true ∈ es)
    (h1 : logRun es s.load = .ok s1) (hd : s2.data.names = s1.data.names) (ha : s2.data.attr = s.data.attr) :
    ∀ s3, LogAfter s2 s3 → ∀ es', (∀ s4, logRun es' s3.load = .ok s4 →
      LogEv.flush true ∉ es' ∧ s4.flush true = .err ∧ ∀ entries, s4.close true entries = .err) := by
  have add_names : ∀ (es : List LogEv) {a b : LogDir}, logRun es a = .ok b → ∀ n ∈ a.data.names, n ∈ b.data.names := by
    intro es
    induction es with
    | nil =>
      intro a b hab n hn
      simp only [logRun, Res.ok.injEq] at hab
      rw [← hab]; exact hn
    | cons e es ih =>
      intro a b hab n hn
      obtain ⟨c, e1, e2⟩ := Res.bind_ok (x := e.run a) hab
      exact ih e2 n ((ev_mono e1).2 n hn)
  have first : ∀ (es : List LogEv) {a b : LogDir}, logRun es a = .ok b → LogEv.flush true ∈ es →
      a.data.count ∈ b.data.names := by
    intro es
    induction es with
    | nil => intro a b _ hm; simp at hm
    | cons e es ih =>
      intro a b hab hm
      obtain ⟨c, e1, e2⟩ := Res.bind_ok (x := e.run a) hab
      by_cases hfl : e = .flush true
      · subst hfl
        apply add_names es e2
        simp only [LogEv.run, LogDir.flush, if_true] at e1
        obtain ⟨l, e3, e4⟩ := Res.bind_ok e1
        simp only [Res.ok.injEq] at e4
        rw [← e4]
        unfold LogNames.add at e3
        split at e3
        · simp at e3
        · simp only [Res.ok.injEq] at e3
          rw [← e3]; simp
      · have : c.data = a.data := by
          cases e with
          | flush b' =>
            cases b' with
            | false =>
              simp only [LogEv.run, LogDir.flush, Bool.false_eq_true, if_false, Res.ok.injEq] at e1
              rw [← e1]
            | true => exact absurd rfl hfl
          | metaflush b' =>
            cases b' with
            | false =>
              simp only [LogEv.run, LogDir.metaflush, Bool.false_eq_true, if_false, Res.ok.injEq] at e1
              rw [← e1]
            | true =>
              simp only [LogEv.run, LogDir.metaflush, if_true] at e1
              obtain ⟨l, _, e4⟩ := Res.bind_ok e1
              simp only [Res.ok.injEq] at e4
              rw [← e4]
        rw [← this]
        refine ih e2 ?_
        rcases List.mem_cons.mp hm with hm | hm
        · exact absurd hm.symm hfl
        · exact hm
  have t2 : Taken s2 := by
    unfold Taken
    rw [hd, ha]
    exact first es h1 hes
  have fail : ∀ {u : LogDir}, u.data.count ∈ u.data.names → u.flush true = .err ∧ ∀ entries, u.close true entries = .err := by
    intro u hu
    have : u.flush true = .err := by simp [LogDir.flush, LogNames.add, hu, Res.bind]
    exact ⟨this, fun entries => by simp [LogDir.close, this, Res.bind]⟩
  have keep : ∀ s3, LogAfter s2 s3 → Taken s3 := by
    intro s3 h3
    induction h3 with
    | start => exact t2
    | @close s s1 s' es full entries _ e1 e2 ih =>
      obtain ⟨_, i2⟩ := taken_run es (s := s.load) ih e1
      have ht : s1.data.count ∈ s1.data.names := by rw [i2]; exact ih
      have hfull : full = false := by
        cases full with
        | false => rfl
        | true => rw [(fail ht).2 entries] at e2; simp at e2
      subst hfull
      simp only [LogDir.close, LogDir.flush, Bool.false_eq_true, if_false, Res.bind] at e2
      have : ∃ m, s' = ⟨s1.data.save, m⟩ := by
        obtain ⟨u, e3, e4⟩ := Res.bind_ok (x := s1.metaflush entries) e2
        simp only [Res.ok.injEq] at e4
        have hu : u.data = s1.data := by
          cases entries with
          | false =>
            simp only [LogDir.metaflush, Bool.false_eq_true, if_false, Res.ok.injEq] at e3
            rw [← e3]
          | true =>
            simp only [LogDir.metaflush, if_true] at e3
            obtain ⟨l, _, e5⟩ := Res.bind_ok e3
            simp only [Res.ok.injEq] at e5
            rw [← e5]
        exact ⟨_, by rw [← e4, hu]⟩
      obtain ⟨m, rfl⟩ := this
      exact ht
    | stop es _ e1 e2 e3 ih =>
      unfold Taken
      rw [e2]
      exact e3 _ ih
  intro s3 h3 es' s4 h4
  obtain ⟨i1, i2⟩ := taken_run es' (s := s3.load) (keep s3 h3) h4
  have ht : s4.data.count ∈ s4.data.names := by rw [i2]; exact keep s3 h3
  exact ⟨i1, fail ht⟩

/-- The first session flushes once and dies. -/
example : LogLife LogDir.create ∧ logRun [.flush true] LogDir.create.load = .ok ⟨⟨[0], 1, 0⟩, .create⟩ ∧
    (LogDir.load ⟨⟨[0], 1, 0⟩, .create⟩).flush true = .err := ⟨.create, rfl, rfl⟩

end Verif.Props
