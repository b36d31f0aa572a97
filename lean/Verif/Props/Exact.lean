import Verif.Lemmas.ExactFile
import Verif.Lemmas.Script
import Verif.Props.FileEx

/-
C77: exactly which datasets can be read back when selections are recorded once.
-/

namespace Verif.Props

open Spec (AW AFile ReqsWF Repeats Viewable Reach Returns ReturnsIfOk Confined Indexable Small Fresh
  SameEntry Origin EachOrigin Legible SmallRecords Buildable Measured Served present)

variable {cfg : Cfg} {st : FState} {a : AFile}

/-- **C77, compact index.** Requests for blocks of datasets all of whose selections the index knows return the last values written;
a request for blocks of any other dataset makes the read undefined, whatever the process, the memory and the size of the buffer. -/
theorem C77_compact (h : Reach cfg st a) (hc : st.compact = true) {qs : List RReq} (hq : ReqsWF true a.dsets qs)
    (hs : ∀ q ∈ qs, q.bs ≠ [] → SmallRecords a q.did) {r : Nat} (hr : r < a.queue.length) (he : a.epoch.flatten = [])
    (hm : st.mbuf = none ∨ a.done ≠ []) (hv : Viewable qs) (hp : Repeats a.done qs) :
    ((∀ q ∈ qs, q.bs ≠ [] → Legible cfg a q.did) ∧ Returns st r qs a.done) ∨
    ((∃ q ∈ qs, q.bs ≠ [] ∧ ¬ Legible cfg a q.did) ∧
      ∀ fuel fill mem out, st.reads fuel r fill qs mem out ↔ out = .ub) := by
  by_cases hl : ∀ q ∈ qs, q.bs ≠ [] → Legible cfg a q.did
  · refine Or.inl ⟨hl, (reach_repeated h ?_ (by rw [hc]; exact hq) hr he hm).1 hv hp⟩
    rw [hc]
    exact ⟨by simp, by simp, fun _ => hl, fun _ => hs⟩
  · have hu : ∃ q ∈ qs, q.bs ≠ [] ∧ ¬ Legible cfg a q.did := by
      by_contra hn
      exact hl (fun q hqm hb => by
        by_contra hf
        exact hn ⟨q, hqm, hb, hf⟩)
    exact Or.inr ⟨hu, fun fuel fill mem out => reach_unserved h hq.dset (Or.inr ⟨hc, hu⟩) fuel r fill mem out⟩

/-- **C77, list index.** If the index can be built, requests for blocks of datasets all of whose block offsets it knows return the last
values written; if it cannot be built, every read is undefined, whatever it asks for. -/
theorem C77_list (h : Reach cfg st a) (hc : st.compact = false) {qs : List RReq} (hq : ReqsWF false a.dsets qs)
    (hs : ∀ q ∈ qs, q.bs ≠ [] → Measured cfg a q.did) {r : Nat} (hr : r < a.queue.length) (he : a.epoch.flatten = [])
    (hm : st.mbuf = none ∨ a.done ≠ []) (hv : Viewable qs) (hp : Repeats a.done qs) :
    (Buildable cfg a ∧ Returns st r qs a.done) ∨
    (¬ Buildable cfg a ∧ ∀ fuel fill mem out, st.reads fuel r fill qs mem out ↔ out = .ub) := by
  by_cases hl : Buildable cfg a
  · refine Or.inl ⟨hl, (reach_repeated h ?_ (by rw [hc]; exact hq) hr he hm).1 hv hp⟩
    rw [hc]
    exact ⟨fun _ => hl, fun _ => hs, by simp, by simp⟩
  · exact Or.inr ⟨hl, fun fuel fill mem out => reach_unserved h hq.dset (Or.inl ⟨hc, hl⟩) fuel r fill mem out⟩

/-- **C77 after a close.** The file is closed and opened by any processes with the compact index, possibly after datasets were removed. -/
theorem C77_reopen_compact (h : Reach cfg st a) {doff mdoff : Nat} (hf : Fresh st doff) (hf' : Fresh st mdoff)
    (hd : doff + Spec.queued a ≤ mdoff) {np : Nat} (h0 : 0 < np) (h1 : np < 2 ^ 31) (mbuf : Option Nat) (gone : Nat → Bool)
    {qs : List RReq} (hq : ReqsWF true (a.dsets.mapIdx (fun i o => if gone i then none else o)) qs)
    (hs : ∀ q ∈ qs, q.bs ≠ [] → SmallRecords a.flush.metaflush q.did) (hv : Viewable qs)
    (hp : Repeats (a.done ++ a.queue.flatten) qs) {r : Nat} (hr : r < np) (hm : mbuf = none ∨ a.done ++ a.queue.flatten ≠ []) :
    ∃ st1, st.close doff mdoff = .ok st1 ∧ (Small st1 →
      ((∀ q ∈ qs, q.bs ≠ [] → Legible cfg (a.flush.metaflush.reopen np gone) q.did) ∧
        Returns (st1.reopen np true mbuf gone) r qs (a.done ++ a.queue.flatten)) ∨
      ((∃ q ∈ qs, q.bs ≠ [] ∧ ¬ Legible cfg (a.flush.metaflush.reopen np gone) q.did) ∧
        ∀ fuel fill mem out, (st1.reopen np true mbuf gone).reads fuel r fill qs mem out ↔ out = .ub)) := by
  obtain ⟨g, inv⟩ := reach_inv h
  obtain ⟨st2, c1, _⟩ := inv_close inv hf hf' hd
  refine ⟨_, c1, fun hsm => ?_⟩
  have hreach := Reach.reopen doff mdoff np true mbuf gone h hf hf' hd h0 h1 c1 hsm
  exact C77_compact hreach rfl hq hs (by simpa [AFile.reopen] using hr) (by simp [AFile.reopen]) hm hv hp

/-- **C77 after a close**, list index. -/
theorem C77_reopen_list (h : Reach cfg st a) {doff mdoff : Nat} (hf : Fresh st doff) (hf' : Fresh st mdoff)
    (hd : doff + Spec.queued a ≤ mdoff) {np : Nat} (h0 : 0 < np) (h1 : np < 2 ^ 31) (mbuf : Option Nat) (gone : Nat → Bool)
    {qs : List RReq} (hq : ReqsWF false (a.dsets.mapIdx (fun i o => if gone i then none else o)) qs)
    (hs : ∀ q ∈ qs, q.bs ≠ [] → Measured cfg a.flush.metaflush q.did) (hv : Viewable qs)
    (hp : Repeats (a.done ++ a.queue.flatten) qs) {r : Nat} (hr : r < np) (hm : mbuf = none ∨ a.done ++ a.queue.flatten ≠ []) :
    ∃ st1, st.close doff mdoff = .ok st1 ∧ (Small st1 →
      (Buildable cfg (a.flush.metaflush.reopen np gone) ∧
        Returns (st1.reopen np false mbuf gone) r qs (a.done ++ a.queue.flatten)) ∨
      (¬ Buildable cfg (a.flush.metaflush.reopen np gone) ∧
        ∀ fuel fill mem out, (st1.reopen np false mbuf gone).reads fuel r fill qs mem out ↔ out = .ub)) := by
  obtain ⟨g, inv⟩ := reach_inv h
  obtain ⟨st2, c1, _⟩ := inv_close inv hf hf' hd
  refine ⟨_, c1, fun hsm => ?_⟩
  have hreach := Reach.reopen doff mdoff np false mbuf gone h hf hf' hd h0 h1 c1 hsm
  exact C77_list hreach rfl hq hs (by simpa [AFile.reopen] using hr) (by simp [AFile.reopen]) hm hv hp

/-- The conditions that do not mention which selections are recorded are special cases. -/
theorem C77_indexable {compact : Bool} (hi : Indexable cfg compact a) {qs : List RReq} (hq : ReqsWF compact a.dsets qs) :
    Served cfg compact a qs := hi.served hq

/-! ### Cases -/

def eoD : DInfo := ⟨[4], [some 4], 1⟩
def eoW (did : Nat) (v : Byte) : AW := ⟨did, eoD, [⟨[1], [2]⟩], [v, v]⟩
/-- Three datasets are written with the same selection by one process; then one is removed. -/
def eoOps (gone : Nat) : List Op := [.dset eoD, .dset eoD, .dset eoD, .write 0 (eoW 0 1), .write 0 (eoW 1 2), .write 0 (eoW 2 3),
  .reopen 1000 2000 2 [gone]]
def eoQ : RReq := ⟨2, eoD, [⟨[0], [4]⟩], 5000⟩

theorem eo_run (enc share compact : Bool) (gone : Nat) (hg : gone = 0 ∨ gone = 1) : ∃ st a, Reach ⟨enc, share⟩ st a ∧
    st.compact = compact ∧ st.mbuf = none ∧ a.secs = [[eoW 0 1, eoW 1 2, eoW 2 3]] ∧ a.queue.length = 2 ∧
    a.epoch.flatten = [] ∧ a.dsets = (List.replicate 3 (some eoD)).set gone none ∧ a.done = [eoW 0 1, eoW 1 2, eoW 2 3] := by
  have h : ∀ enc share compact, ∀ gone ∈ [0, 1], okWith (fun s => decide (s.1.compact = compact) && decide (s.1.mbuf = none) &&
      decide (s.2.secs = [[eoW 0 1, eoW 1 2, eoW 2 3]]) && decide (s.2.queue.length = 2) && decide (s.2.epoch.flatten = []) &&
      decide (s.2.dsets = (List.replicate 3 (some eoD)).set gone none) && decide (s.2.done = [eoW 0 1, eoW 1 2, eoW 2 3]))
      (script ⟨enc, share⟩ compact 1 (eoOps gone)) = true := by decide +kernel
  obtain ⟨⟨st, a⟩, h1, h2⟩ := okWith_iff (h enc share compact gone (by simp [hg]))
  simp only [Bool.and_eq_true, decide_eq_true_eq] at h2
  obtain ⟨⟨⟨⟨⟨⟨a1, a2⟩, a3⟩, a4⟩, a5⟩, a6⟩, a7⟩ := h2
  exact ⟨st, a, script_reach (by decide) (by decide) h1, a1, a2, a3, a4, a5, a6, a7⟩

theorem eo_req (compact : Bool) (gone : Nat) (hg : gone = 0 ∨ gone = 1) :
    ReqsWF compact ((List.replicate 3 (some eoD)).set gone none) [eoQ] ∧ Viewable [eoQ] ∧
      ∀ log, Repeats log [eoQ] := by
  have h1 : ReqsWF compact ((List.replicate 3 (some eoD)).set gone none) [eoQ] := by
    refine ⟨?_, by decide, by decide, by decide, ?_, List.pairwise_singleton _ _⟩
    · rcases hg with rfl | rfl <;> decide
    · intro _
      simp only [List.mem_singleton, forall_eq, eoQ, List.head?_cons, Option.some.injEq]
      omega
  refine ⟨h1, viewable_one eoQ _ rfl, ?_⟩
  intro log
  refine Spec.ReqsOK.repeats (compact := compact) (dsets := (List.replicate 3 (some eoD)).set gone none) ?_ log
  exact ⟨h1.dset, h1.es, h1.shape, h1.cnt, h1.head, by simp [eoQ], List.pairwise_singleton _ _, h1.bufs⟩

theorem eo_notConfined (did : Nat) (v : Byte) : ¬ Confined (eoW did v) := by
  rintro ⟨h, _⟩
  simp [eoW, eoD] at h

theorem eo_same (cfg : Cfg) (i j : Nat) (u v : Byte) : SameEntry cfg (eoW i u) (eoW j v) :=
  ⟨Or.inl rfl, ⟨fun h => absurd h (eo_notConfined _ _), fun h => absurd h (eo_notConfined _ _)⟩,
    ⟨Nat.one_pos, fun h => absurd h (eo_notConfined _ _)⟩, by intro _ h; simp [eoW] at h⟩

theorem eo_origin {cfg : Cfg} {a : AFile} (hs : a.secs = [[eoW 0 1, eoW 1 2, eoW 2 3]]) :
    ∀ p ∈ a.secs, ∀ prev y post, p = prev ++ y :: post → ∀ x, Origin cfg prev x y → x = eoW 0 1 := by
  intro p hp prev y post e x ho
  rw [hs, List.mem_singleton] at hp
  subst hp
  obtain ⟨p1, q1, e1, _, hno⟩ := ho
  have hy : ∃ i v, y = eoW i v := by
    have : y ∈ [eoW 0 1, eoW 1 2, eoW 2 3] := by rw [e]; simp
    simp only [List.mem_cons, List.not_mem_nil, or_false] at this
    rcases this with rfl | rfl | rfl <;> exact ⟨_, _, rfl⟩
  obtain ⟨i, v, rfl⟩ := hy
  cases p1 with
  | nil =>
    rw [e1] at e
    simp only [List.nil_append, List.cons_append, List.cons.injEq] at e
    exact e.1.symm
  | cons z p1 =>
    rw [e1] at e
    simp only [List.cons_append, List.cons.injEq] at e
    exact absurd (eo_same cfg 0 i 1 v) (by rw [e.1]; exact hno z (by simp))

/-- Dataset 1 is removed: dataset 2 can be read with either index, although a dataset written before it with the same selection is gone, which
the earlier condition excludes. -/
example (enc compact : Bool) : ∃ st a, Reach ⟨enc, true⟩ st a ∧ st.compact = compact ∧ ¬ Indexable ⟨enc, true⟩ compact a ∧
    Buildable ⟨enc, true⟩ a ∧ Measured ⟨enc, true⟩ a 2 ∧ Legible ⟨enc, true⟩ a 2 ∧ SmallRecords a 2 ∧
    ReqsWF compact a.dsets [eoQ] ∧ Returns st 1 [eoQ] a.done := by
  obtain ⟨st, a, h1, h2, h3, h4, h5, h6, h7, h8⟩ := eo_run enc true compact 1 (Or.inr rfl)
  obtain ⟨q1, q2, q3⟩ := eo_req compact 1 (Or.inr rfl)
  have hpr : present a.dsets 0 = true := by rw [h7]; decide
  have hor := eo_origin (cfg := ⟨enc, true⟩) h4
  have b1 : Buildable ⟨enc, true⟩ a := by
    intro did _ _ p hp prev y post e _ x ho
    rw [hor p hp prev y post e x ho]; exact hpr
  have b2 : Measured ⟨enc, true⟩ a 2 := by
    intro _ p hp prev y post e _ x ho
    have hy : y ∈ p := by rw [e]; simp
    rw [h4, List.mem_singleton] at hp
    right
    have : ∀ y ∈ [eoW 0 1, eoW 1 2, eoW 2 3], y.bs.length = 1 := by decide
    exact this y (by rw [← hp]; exact hy)
  have b3 : Legible ⟨enc, true⟩ a 2 := by
    intro _ p hp prev y post e _ x ho
    have hy : y ∈ p := by rw [e]; simp
    refine ⟨by rw [hor p hp prev y post e x ho]; exact hpr, fun hc => ?_⟩
    rw [h4, List.mem_singleton] at hp
    rw [hp] at hy
    simp only [List.mem_cons, List.not_mem_nil, or_false] at hy
    rcases hy with rfl | rfl | rfl <;> exact eo_notConfined _ _ hc.1
  have b4 : SmallRecords a 2 := by
    intro p hp w hw _ hc
    rw [h4, List.mem_singleton] at hp
    rw [hp] at hw
    simp only [List.mem_cons, List.not_mem_nil, or_false] at hw
    rcases hw with rfl | rfl | rfl <;> exact absurd hc (eo_notConfined _ _)
  refine ⟨st, a, h1, h2, ?_, b1, b2, b3, b4, by rw [h7]; exact q1, ?_⟩
  · intro hi
    have := hi.link rfl _ (by rw [h4]; exact List.mem_singleton.mpr rfl)
    simp only [List.pairwise_cons, List.mem_cons, List.not_mem_nil, or_false, forall_eq_or_imp, forall_eq] at this
    have h9 := this.2.1 (Or.inl rfl)
    rw [h7] at h9
    exact absurd (h9 (by decide)) (by decide)
  · cases compact with
    | true =>
      rcases C77_compact h1 h2 (by rw [h7]; exact q1) (by simpa [eoQ] using b4) (r := 1) (by omega) h6 (Or.inl h3) q2 (q3 _) with h | h
      · exact h.2
      · obtain ⟨⟨q, hq, _, hn⟩, _⟩ := h
        rw [List.mem_singleton] at hq
        exact absurd (by rw [hq]; exact b3) hn
    | false =>
      rcases C77_list h1 h2 (by rw [h7]; exact q1) (by simpa [eoQ] using b2) (r := 1) (by omega) h6 (Or.inl h3) q2 (q3 _) with h | h
      · exact h.2
      · exact absurd b1 h.1

/-- Dataset 0 is removed: dataset 2 can be read with neither index. -/
example (enc compact : Bool) : ∃ st a, Reach ⟨enc, true⟩ st a ∧ st.compact = compact ∧
    ¬ Buildable ⟨enc, true⟩ a ∧ ¬ Legible ⟨enc, true⟩ a 2 ∧
    ReqsWF compact a.dsets [eoQ] ∧ ∀ fuel fill mem out, st.reads fuel 1 fill [eoQ] mem out ↔ out = .ub := by
  obtain ⟨st, a, h1, h2, h3, h4, h5, h6, h7, h8⟩ := eo_run enc true compact 0 (Or.inl rfl)
  obtain ⟨q1, q2, q3⟩ := eo_req compact 0 (Or.inl rfl)
  have ho : Origin ⟨enc, true⟩ [eoW 0 1, eoW 1 2] (eoW 0 1) (eoW 2 3) := ⟨[], [eoW 1 2], rfl, eo_same _ _ _ _ _, by simp⟩
  have hs : [eoW 0 1, eoW 1 2, eoW 2 3] ∈ a.secs := by rw [h4]; simp
  have hpr : present a.dsets 0 = false := by rw [h7]; decide
  have b1 : ¬ Buildable ⟨enc, true⟩ a := by
    intro hb
    have := hb 2 (by rw [h7]; decide) rfl _ hs [eoW 0 1, eoW 1 2] (eoW 2 3) [] rfl rfl _ ho
    simp only [eoW] at this
    rw [hpr] at this
    simp at this
  have b2 : ¬ Legible ⟨enc, true⟩ a 2 := by
    intro hb
    have := (hb rfl _ hs [eoW 0 1, eoW 1 2] (eoW 2 3) [] rfl rfl _ ho).1
    simp only [eoW] at this
    rw [hpr] at this
    simp at this
  refine ⟨st, a, h1, h2, b1, b2, by rw [h7]; exact q1, fun fuel fill mem out => ?_⟩
  refine reach_unserved h1 (by rw [h7]; exact q1.dset) ?_ fuel 1 fill mem out
  cases compact with
  | true => exact Or.inr ⟨h2, eoQ, by simp, by simp [eoQ], b2⟩
  | false => exact Or.inl ⟨h2, b1⟩

/-- The hypotheses of `C77_reopen_compact` and `C77_reopen_list` hold before the close of this history. -/
example (enc compact : Bool) (gone : Nat → Bool) (hg : gone 2 = false) : ∃ st a st1, Reach ⟨enc, true⟩ st a ∧ st.compact = compact ∧
    Fresh st 1000 ∧ Fresh st 2000 ∧ 1000 + Spec.queued a ≤ 2000 ∧ st.close 1000 2000 = .ok st1 ∧ Small st1 ∧
    (∀ c, ReqsWF c (a.dsets.mapIdx (fun i o => if gone i then none else o)) [eoQ]) ∧ Viewable [eoQ] ∧
    Repeats (a.done ++ a.queue.flatten) [eoQ] ∧ SmallRecords a.flush.metaflush 2 ∧ Measured ⟨enc, true⟩ a.flush.metaflush 2 := by
  have h : ∀ enc compact, okWith (fun s => okWith (fun st1 => decide (s.1.compact = compact) && decide (Fresh s.1 1000) &&
      decide (Fresh s.1 2000) && decide (1000 + Spec.queued s.2 ≤ 2000) && decide (Small st1) &&
      decide (s.2.dsets = List.replicate 3 (some eoD)) && decide (s.2.flush.metaflush.secs = [[eoW 0 1, eoW 1 2, eoW 2 3]]))
      (s.1.close 1000 2000)) (script ⟨enc, true⟩ compact 1 ((eoOps 0).take 6)) = true := by decide +kernel
  obtain ⟨⟨st, a⟩, h1, h2⟩ := okWith_iff (h enc compact)
  obtain ⟨st1, h3, h4⟩ := okWith_iff h2
  simp only [Bool.and_eq_true, decide_eq_true_eq] at h4
  obtain ⟨⟨⟨⟨⟨⟨a1, a2⟩, a3⟩, a4⟩, a5⟩, a6⟩, a7⟩ := h4
  refine ⟨st, a, st1, script_reach (by decide) (by decide) h1, a1, a2, a3, a4, h3, a5, ?_, viewable_one eoQ _ rfl,
    (eo_req true 0 (Or.inl rfl)).2.2 _, ?_, ?_⟩
  · intro c
    have q := (eo_req c 0 (Or.inl rfl)).1
    refine ⟨?_, q.es, q.shape, q.cnt, q.head, q.bufs⟩
    simp only [List.mem_singleton, forall_eq]
    rw [a6]
    simp [eoQ, hg]
  · intro p hp w hw _ hc
    rw [a7, List.mem_singleton] at hp
    rw [hp] at hw
    simp only [List.mem_cons, List.not_mem_nil, or_false] at hw
    rcases hw with rfl | rfl | rfl <;> exact absurd hc (eo_notConfined _ _)
  · intro _ p hp prev y post e _ x ho
    have hy : y ∈ p := by rw [e]; simp
    rw [a7, List.mem_singleton] at hp
    right
    have : ∀ y ∈ [eoW 0 1, eoW 1 2, eoW 2 3], y.bs.length = 1 := by decide
    exact this y (by rw [← hp]; exact hy)

end Verif.Props
