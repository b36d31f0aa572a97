import Verif.Lemmas.ReplaySub
import Verif.Model.Subfile
import Verif.Props.Replay
import Verif.Props.Info
import Mathlib.Data.List.TakeWhile

/-
C55: h5lreplay handles all subfiles.
-/

namespace Verif.Props

open _root_.Verif.Spec (AW AFile WriteOK Fresh Small Reach lastByte Covers NoRace FitsNow Reproduced sectionsOf splitWrite)

/-- **C55, which process reads which subfile.** For every number of processes and subfiles, and every way to split the processes: each
subfile is handled by exactly one group of processes, once by each of its members and not by others; the members have the ranks
from 0 to the size of the group minus 1, once each; and no other file is opened. -/
theorem C55_subfiles (color : Nat → Nat) {np nsub : Nat} (hnp : 0 < np) :
    (∀ r < np, ∀ j ∈ replaySubs color np nsub r, j < nsub) ∧
    ∀ j < nsub, ∃ c, (∃ r < np, color r = c) ∧
      (∀ r < np, (replaySubs color np nsub r).count j = if color r = c then 1 else 0) ∧
      ((List.range np).filter (fun i => color i == c)).map (groupRank color) =
        List.range ((List.range np).filter (fun i => color i == c)).length ∧
      ∀ r < np, color r = c → replaySubnp color np r = ((List.range np).filter (fun i => color i == c)).length := by
  constructor
  · intro r hr j hj
    rw [replaySubs_eq color hr] at hj
    simp at hj
    exact hj.1
  · intro j hj
    obtain ⟨c, hc⟩ := group_color color (j := j) hnp
    obtain ⟨r, hr, h1, _, _⟩ := team_member color (nsub := nsub) hnp hj (subTeam_pos color hnp)
    have hr1 : color r = c := by
      rw [replaySubs_eq color hr] at h1
      simp at h1
      exact (hc r hr).mp h1.2.symm
    refine ⟨c, ⟨r, hr, hr1⟩, ?_, ranks_of color c np, ?_⟩
    · intro i hi
      rw [replaySubs_eq color hi]
      have hn : ((List.range nsub).filter (fun j => decide (j % replayNodes color np = groupId color i))).Nodup :=
        List.Nodup.filter _ List.nodup_range
      by_cases h : color i = c
      · rw [if_pos h]
        refine List.count_eq_one_of_mem hn ?_
        simp [hj, (hc i hi).mpr h]
      · rw [if_neg h, List.count_eq_zero]
        intro hm
        simp at hm
        exact h ((hc i hi).mp hm.2.symm)
    · intro i hi h
      unfold replaySubnp
      rw [h]

/-- The groups of the tool: processes with even and with odd rank. -/
example : (List.range 5).map (replaySubs replayColor 5 5) = [[0, 2, 4], [1, 3], [0, 2, 4], [1, 3], [0, 2, 4]] ∧
    (List.range 5).map (groupRank replayColor) = [0, 0, 1, 1, 2] ∧
    (List.range 5).map (replaySubnp replayColor 5) = [3, 2, 3, 2, 3] := by decide

theorem baseName_eq {n : Name} : baseName n = n ↔ '/' ∉ n := by
  unfold baseName
  constructor
  · intro h hm
    rw [← h] at hm
    rw [List.mem_reverse] at hm
    have := List.mem_takeWhile_imp hm
    simp at this
  · intro h
    rw [List.takeWhile_eq_self_iff.mpr, List.reverse_reverse]
    intro c hc
    simp only [decide_eq_true_eq]
    rintro rfl
    exact h (List.mem_reverse.mp hc)

/-- **C55, paths.** The tools look for a subfile where the connector has created it, and different subfiles have different paths. -/
theorem C55_paths (n : Name) : (∀ g, replayPath n g = createPath n g) ∧ ∀ g g', createPath n g = createPath n g' → g = g' := by
  refine ⟨fun _ => rfl, fun g g' h => ?_⟩
  unfold createPath at h
  have h2 := List.append_cancel_left h
  simp only [List.cons.injEq, true_and] at h2
  rw [digits_eq, digits_eq] at h2
  have := congrArg readDigits h2
  rwa [readDigits_digits, readDigits_digits] at this

example : createPath "d/f.h5".toList 12 = "d/f.h5.subfiles/f.h5.12".toList ∧
    openPath "d/f.h5".toList 12 = "d/f.h5.subfiles/d/f.h5.12".toList := by decide +kernel

/-! ### End to end -/

theorem flatMapRes_all {α β : Type} {f : α → Res (List β)} {g : α → List β} : ∀ {l : List α}, (∀ a ∈ l, f a = .ok (g a)) →
    flatMapRes f l = .ok (l.flatMap g)
  | [], _ => rfl
  | a :: l, h => by
    simp only [flatMapRes, h a (by simp), flatMapRes_all (l := l) (fun b hb => h b (by simp [hb]))]
    rfl

theorem groupRank_lt (color : Nat → Nat) {np r : Nat} (hr : r < np) : groupRank color r < replaySubnp color np r := by
  have h := ranks_of color (color r) np
  have : groupRank color r ∈ List.range ((List.range np).filter (fun i => color i == color r)).length := by
    rw [← h]
    exact List.mem_map_of_mem (by simp [hr])
  exact List.mem_range.mp this

theorem flatMap_sublist {α β : Type} {f g : α → List β} : ∀ {l : List α}, (∀ a ∈ l, (f a).Sublist (g a)) →
    (l.flatMap f).Sublist (l.flatMap g)
  | [], _ => by simp
  | a :: l, h => by
    rw [List.flatMap_cons, List.flatMap_cons]
    exact (h a (by simp)).append (flatMap_sublist (fun b hb => h b (by simp [hb])))

theorem lastByte_flatMap_congr {f g : Nat → List AW} {did : Nat} {x : List Nat} {k : Nat} : ∀ {l : List Nat},
    (∀ j ∈ l, lastByte (f j) did x k = lastByte (g j) did x k) → lastByte (l.flatMap f) did x k = lastByte (l.flatMap g) did x k
  | [], _ => rfl
  | j :: l, h => by
    rw [List.flatMap_cons, List.flatMap_cons, lastByte_append, lastByte_append, h j (by simp),
      lastByte_flatMap_congr (fun i hi => h i (by simp [hi]))]

theorem replaySub_out {color : Nat → Nat} {np nsub : Nat} {sub : Nat → FState} {P : Nat → List AW}
    (hproc : ∀ r < np, replaySubProc color np nsub sub r = .ok ((P r).map ofAW)) :
    (∃ out, replaySub color np nsub sub out) ∧ ∀ out, replaySub color np nsub sub out → ∃ l,
      Interleaved ((List.range np).map P) l ∧ out = .ok ((l.map ofAW).foldl hwrite (fun _ _ _ => none)) := by
  constructor
  · obtain ⟨l, hl⟩ := interleaved_exists _ ((List.range np).map (fun r => (P r).map ofAW)) rfl
    refine ⟨_, .inl ⟨_, l, ?_, ?_, hl, rfl⟩⟩
    · simp
    · intro r hr
      rw [hproc r (by simpa using hr)]
      simp
  · rintro out (⟨ls, l, h1, h2, h3, h4⟩ | ⟨r, hr, h1, _⟩ | ⟨r, hr, h1, _⟩)
    · have hls : ls = ((List.range np).map P).map (List.map ofAW) := by
        apply List.ext_getElem (by simp [h1])
        intro i hi hi'
        have := h2 i hi
        rw [hproc i (by omega)] at this
        simp only [Res.ok.injEq] at this
        simp [this]
      rw [hls] at h3
      obtain ⟨l', e1, e2⟩ := interleaved_map ofAW h3
      exact ⟨l', e2, by rw [h4, e1]⟩
    · rw [hproc r hr] at h1; simp at h1
    · rw [hproc r hr] at h1; simp at h1

/-- The history of a subfile and the state in which it was closed. -/
structure SubClosed (cfg : Cfg) (dsets : DSets) (team : Nat) (a : AFile) (stc : FState) : Prop where
  closed : ∃ st doff mdoff, Reach cfg st a ∧ Fresh st doff ∧ Fresh st mdoff ∧ doff + Spec.queued a ≤ mdoff ∧
    st.close doff mdoff = .ok stc
  tab : a.dsets = dsets
  fits : ∀ w ∈ a.done ++ a.queue.flatten, FitsNow dsets w
  small : Small stc
  size : ∀ e ∈ stc.mds, e.size < 2 ^ 31
  many : ∀ e ∈ stc.mds, team ≤ sectionsOf stc.disk e

theorem SubClosed.inv {cfg : Cfg} {dsets : DSets} {team : Nat} {a : AFile} {stc : FState} (h : SubClosed cfg dsets team a stc) :
    ∃ g, Inv cfg g stc a.flush.metaflush ∧ Replayable g stc team ∧ ∀ s ∈ a.flush.metaflush.secs, s.Sublist a.flush.metaflush.done := by
  obtain ⟨st, doff, mdoff, h1, h2, h3, h4, h5⟩ := h.closed
  obtain ⟨stc', e1, e2, e3⟩ := closed_inv h1 h2 h3 h4
  have : stc' = stc := by
    have := e1.symm.trans h5
    simpa using this
  subst this
  obtain ⟨g, inv⟩ := e3 h.small
  refine ⟨g, inv, inv_replayable inv e2 h.size (fun e he => .inl (h.many e he)) ?_, ?_⟩
  · intro w hw
    have := h.fits w hw
    rw [← h.tab] at this
    exact this
  · intro s hs
    exact sub_metaflush (sub_flush (reach_sub h1)) s (by simp [hs])

/-- **C55, partial: no races.** A file with any number of subfiles, each written by a history of its own: if writes of different
processes, writes in different epochs and writes to different subfiles have no common cell, replaying it with any number of
processes, split in any way into groups not larger than those that wrote the subfiles, succeeds however the processes are
scheduled; and the output has for every byte of every element the one of the last write covering it. -/
theorem C55_replay_partial (cfg : Cfg) (color : Nat → Nat) {np nsub : Nat} (hnp : 0 < np) {a : Nat → AFile} {sub : Nat → FState}
    {dsets : DSets} (h : ∀ j < nsub, SubClosed cfg dsets (subTeam color np j) (a j) (sub j))
    (hr : NoRace ((List.range nsub).flatMap (fun j => (a j).flush.metaflush.secs))) :
    (∃ out, replaySub color np nsub sub out) ∧ ∀ out, replaySub color np nsub sub out → ∃ c, out = .ok c ∧
      Reproduced dsets ((List.range nsub).flatMap (fun j => (a j).done ++ (a j).queue.flatten)) c := by
  have hg : ∃ g : Nat → Ghost, ∀ j < nsub, Inv cfg (g j) (sub j) (a j).flush.metaflush ∧
      Replayable (g j) (sub j) (subTeam color np j) ∧
      ∀ s ∈ (a j).flush.metaflush.secs, s.Sublist (a j).flush.metaflush.done := by
    refine ⟨fun j => if hj : j < nsub then Classical.choose (h j hj).inv else ⟨[], [], []⟩, ?_⟩
    intro j hj
    simp only [hj, dif_pos]
    exact Classical.choose_spec (h j hj).inv
  obtain ⟨g, hg⟩ := hg
  have hds : ∀ j < nsub, (sub j).dsets = dsets := by
    intro j hj
    rw [(hg j hj).1.dsets]
    exact (h j hj).tab
  obtain ⟨P, hP⟩ : ∃ P : Nat → List AW, P = fun r => (replaySubs color np nsub r).flatMap
    (fun j => procAW dsets.length (replaySubnp color np r) (groupRank color r) (g j).mdx) := ⟨_, rfl⟩
  have hmem : ∀ r < np, ∀ j ∈ replaySubs color np nsub r, j < nsub ∧ replaySubnp color np r = subTeam color np j := by
    intro r hr j hj
    rw [replaySubs_eq color hr] at hj
    simp at hj
    exact ⟨hj.1, subTeam_eq color hr hj.2.symm⟩
  have hproc : ∀ r < np, replaySubProc color np nsub sub r = .ok ((P r).map ofAW) := by
    intro r hr
    unfold replaySubProc
    rw [flatMapRes_all (g := fun j => (procAW dsets.length (replaySubnp color np r) (groupRank color r) (g j).mdx).map ofAW)]
    · rw [hP, List.map_flatMap]
    · intro j hj
      obtain ⟨j1, j2⟩ := hmem r hr j hj
      have hlt := groupRank_lt color hr
      rw [j2] at hlt ⊢
      have := (hg j j1).1.replayProc (hg j j1).2.1 hlt
      rwa [hds j j1] at this
  obtain ⟨o1, o2⟩ := replaySub_out hproc
  refine ⟨o1, fun out ho => ?_⟩
  obtain ⟨l, hl, rfl⟩ := o2 out ho
  refine ⟨_, rfl, ?_⟩
  intro did d hd x k hk
  have hlt : did < dsets.length := (List.getElem?_eq_some_iff.mp hd).1
  have hlm : ∀ v ∈ l, ∃ j < nsub, ∃ y ∈ (g j).mdx.flatten.flatten, v ∈ splitWrite y.1 := by
    intro v hv
    have := hl.perm.mem_iff.mp hv
    obtain ⟨m, h1, h2⟩ := List.mem_flatten.mp this
    obtain ⟨r, hr, rfl⟩ := List.mem_map.mp h1
    rw [hP] at h2
    obtain ⟨j, j1, j2⟩ := List.mem_flatMap.mp h2
    exact ⟨j, (hmem r (List.mem_range.mp hr) j j1).1, procAW_mem j2⟩
  have hval : (l.map ofAW).foldl hwrite (fun _ _ _ => none) did x k = lastByte l did x k := by
    rw [foldl_hwrite]
    · simp
    · intro v hv
      obtain ⟨j, hj, y, h1, h2⟩ := hlm v hv
      exact splitWrite_single ((hg j hj).1.wokm y h1).1 h2
    · intro v hv hvd
      obtain ⟨j, hj, y, h1, h2⟩ := hlm v hv
      have hyd : y.1.did = did := by rw [← splitWrite_did h2]; exact hvd
      have := (((hg j hj).1.wokm y h1).2.same d (by rw [hyd, hds j hj]; exact hd)).2
      rw [splitWrite_d h2, ← this]
      exact hk
  have hrj : ∀ j < nsub, NoRace (a j).flush.metaflush.secs := by
    intro j hj
    unfold NoRace at hr ⊢
    rw [List.flatMap_def] at hr
    exact hr.sublist (List.sublist_flatten_of_mem (List.mem_map.mpr ⟨j, List.mem_range.mpr hj, rfl⟩))
  obtain ⟨S, hS⟩ : ∃ S, S = (List.range nsub).flatMap (fun j => (g j).secs) := ⟨_, rfl⟩
  have hr' : NoRace S := by
    rw [hS]
    unfold NoRace at hr ⊢
    exact hr.sublist (flatMap_sublist (fun j hj => (hg j (List.mem_range.mp hj)).1.ord.1))
  have eS : (S.map (fun s => s.flatMap splitWrite)).flatten =
      (List.range nsub).flatMap (fun j => (g j).secs.flatten.flatMap splitWrite) := by
    rw [hS, List.map_flatMap, List.flatMap_def, List.flatMap_def, List.flatten_flatten, List.map_map]
    congr 1
    apply List.map_congr_left
    intro j _
    simp only [List.flatMap_def, List.map_flatten, List.flatten_flatten, List.map_map, Function.comp_def]
  have hfin : l.filter (coversB did x) = ((S.map (fun s => s.flatMap splitWrite)).flatten).filter (coversB did x) := by
    refine order_fixed ?_ ?_ ?_
    · rw [eS]
      refine (List.Perm.filter _ hl.perm).trans ?_
      rw [← List.flatMap_def, hP]
      refine (List.Perm.filter _ (subs_perm color hnp (fun j n r => procAW dsets.length n r (g j).mdx))).trans ?_
      rw [List.filter_flatMap, List.filter_flatMap]
      refine List.Perm.flatMap_left _ ?_
      intro j hj
      exact procAW_perm (subTeam_pos color hnp) (g j) hlt x
    · intro s hs
      obtain ⟨s', h1, rfl⟩ := List.mem_map.mp hs
      rw [hS] at h1
      obtain ⟨j, hj, h1⟩ := List.mem_flatMap.mp h1
      have hj := List.mem_range.mp hj
      obtain ⟨r, h2, h3⟩ := procAW_sub (subTeam_pos color (j := j) hnp) hlt x h1
      obtain ⟨q, q1, q2, q3, q4⟩ := team_member color hnp hj h2
      refine h3.trans (List.Sublist.filter _ (List.Sublist.trans ?_ (hl.sub (P q) ?_)))
      · rw [hP]
        simp only [q3, q4]
        rw [List.flatMap_def]
        refine List.sublist_flatten_of_mem (List.mem_map.mpr ⟨j, q2, rfl⟩)
      · exact List.mem_map.mpr ⟨q, List.mem_range.mpr q1, rfl⟩
    · rw [List.pairwise_map]
      refine hr'.imp ?_
      intro p q hpq v hv v' hv' ⟨c1, c2⟩
      obtain ⟨w, w1, w2⟩ := List.mem_flatMap.mp hv
      obtain ⟨w', w1', w2'⟩ := List.mem_flatMap.mp hv'
      exact hpq w w1 w' w1' did x ⟨splitWrite_covers w2 (coversB_iff.mp c1), splitWrite_covers w2' (coversB_iff.mp c2)⟩
  rw [hval, ← lastByte_filter, hfin, lastByte_filter, eS]
  refine lastByte_flatMap_congr ?_
  intro j hj
  have hj := List.mem_range.mp hj
  rw [(hg j hj).1.secs_val (by rw [hds j hj]; exact hd) x hk]
  have e : (g j).secs.flatten = (a j).flush.metaflush.secs.flatten := (hg j hj).1.ord.2
  rw [e]
  exact (hg j hj).1.secs_done (flush_epoch (a j)) (hrj j hj) (hg j hj).2.2 did x k

/-! ### Cases -/

/-- Tests for a subfile whose writes are single cells. -/
def subB (team : Nat) (ws : List (Nat × Byte)) (secs : List (List (Nat × Byte))) (s : FState × AFile) (stc : FState) : Bool :=
  freshB s.1 5000 && freshB s.1 6000 && smallB stc && mdsB stc team && decide (s.2.dsets = [some ryD] ∧ Spec.queued s.2 ≤ 1000 ∧
    s.2.done ++ s.2.queue.flatten = ws.map (fun w => ryW w.1 w.2) ∧
    s.2.flush.metaflush.secs = secs.map (fun p => p.map (fun w => ryW w.1 w.2)))

theorem sub_closed {cfg : Cfg} {team : Nat} {ws : List (Nat × Byte)} {secs : List (List (Nat × Byte))} {s : FState × AFile}
    {stc : FState} (h : subB team ws secs s stc = true) (hr : Reach cfg s.1 s.2) (hc : s.1.close 5000 6000 = .ok stc)
    (hw : ∀ w ∈ ws, w.1 < 4) :
    SubClosed cfg [some ryD] team s.2 stc ∧ s.2.done ++ s.2.queue.flatten = ws.map (fun w => ryW w.1 w.2) ∧
      s.2.flush.metaflush.secs = secs.map (fun p => p.map (fun w => ryW w.1 w.2)) := by
  unfold subB at h
  simp only [Bool.and_eq_true, decide_eq_true_eq] at h
  obtain ⟨⟨⟨⟨a1, a2⟩, a3⟩, a4⟩, a5, a6, a7, a8⟩ := h
  refine ⟨⟨⟨s.1, 5000, 6000, hr, freshB_iff.mp a1, freshB_iff.mp a2, by omega, hc⟩, a5, ?_, smallB_iff.mp a3, (mdsB_iff a4).1,
    (mdsB_iff a4).2⟩, a7, a8⟩
  intro w hm
  rw [a7] at hm
  obtain ⟨y, y1, rfl⟩ := List.mem_map.mp hm
  exact ry_fits rfl (hw y y1) _

/-- Two groups of two processes; the second process of each group overwrites its cell. -/
def suOps (i : Nat) : List Op :=
  [.dset ryD, .write 0 (ryW i 1), .write 1 (ryW (i + 1) 2), .flush 1000, .write 1 (ryW (i + 1) 3)]

theorem su_script (enc share compact : Bool) (i : Nat) (hi : i = 0 ∨ i = 2) : ∃ a stc,
    SubClosed ⟨enc, share⟩ [some ryD] 2 a stc ∧
    a.done ++ a.queue.flatten = [(i, 1), (i + 1, 2), (i + 1, 3)].map (fun w => ryW w.1 w.2) ∧
    a.flush.metaflush.secs = [[(i, 1)], [(i + 1, 2), (i + 1, 3)]].map (fun p => p.map (fun w => ryW w.1 w.2)) := by
  have h : ∀ enc share compact, ∀ i ∈ [0, 2], okWith (fun s => okWith (fun stc => subB 2 [(i, 1), (i + 1, 2), (i + 1, 3)]
      [[(i, 1)], [(i + 1, 2), (i + 1, 3)]] s stc) (s.1.close 5000 6000)) (script ⟨enc, share⟩ compact 2 (suOps i)) = true := by
    decide +kernel
  obtain ⟨s, h1, h2⟩ := okWith_iff (h enc share compact i (by simpa using hi))
  obtain ⟨stc, h3, h4⟩ := okWith_iff h2
  exact ⟨s.2, stc, sub_closed h4 (script_reach (by decide) (by decide) h1) h3 (by
    intro w hw
    simp only [List.mem_cons, List.not_mem_nil, or_false] at hw
    rcases hi with rfl | rfl <;> rcases hw with rfl | rfl | rfl <;> decide)⟩

/-- The hypotheses of `C55_replay_partial` are met: two subfiles written by two processes each, replayed by four processes. -/
example (enc share compact : Bool) : ∃ (a : Nat → AFile) (sub : Nat → FState),
    (∀ j < 2, SubClosed ⟨enc, share⟩ [some ryD] (subTeam replayColor 4 j) (a j) (sub j)) ∧
    ∀ out, replaySub replayColor 4 2 sub out → ∃ c, out = .ok c ∧
      c 0 [0] 0 = some 1 ∧ c 0 [1] 0 = some 3 ∧ c 0 [2] 0 = some 1 ∧ c 0 [3] 0 = some 3 := by
  obtain ⟨a0, s0, c0, d0, e0⟩ := su_script enc share compact 0 (.inl rfl)
  obtain ⟨a1, s1, c1, d1, e1⟩ := su_script enc share compact 2 (.inr rfl)
  obtain ⟨a, ha⟩ : ∃ a : Nat → AFile, a = fun j => if j = 0 then a0 else a1 := ⟨_, rfl⟩
  obtain ⟨sub, hsub⟩ : ∃ sub : Nat → FState, sub = fun j => if j = 0 then s0 else s1 := ⟨_, rfl⟩
  have hc : ∀ j < 2, SubClosed ⟨enc, share⟩ [some ryD] (subTeam replayColor 4 j) (a j) (sub j) := by
    intro j hj
    rcases (show j = 0 ∨ j = 1 by omega) with rfl | rfl
    · rw [ha, hsub]; exact c0
    · rw [ha, hsub]; exact c1
  refine ⟨a, sub, hc, fun out ho => ?_⟩
  obtain ⟨c, h1, h2⟩ := (C55_replay_partial _ replayColor (by decide) hc (by
    have : (List.range 2).flatMap (fun j => (a j).flush.metaflush.secs) = a0.flush.metaflush.secs ++ a1.flush.metaflush.secs := by
      rw [ha]; simp [List.range_succ]
    rw [this, e0, e1, ← List.map_append]
    exact ry_noRace (by decide))).2 out ho
  have hl : (List.range 2).flatMap (fun j => (a j).done ++ (a j).queue.flatten) =
      [(0, 1), (1, 2), (1, 3), (2, 1), (3, 2), (3, 3)].map (fun (w : Nat × Byte) => ryW w.1 w.2) := by
    have : (List.range 2).flatMap (fun j => (a j).done ++ (a j).queue.flatten) =
        (a0.done ++ a0.queue.flatten) ++ (a1.done ++ a1.queue.flatten) := by
      rw [ha]; simp [List.range_succ]
    rw [this, d0, d1]; rfl
  rw [hl] at h2
  refine ⟨c, h1, ?_⟩
  have hc := h2 0 ryD rfl
  rw [hc _ 0 (by decide), hc _ 0 (by decide), hc _ 0 (by decide), hc _ 0 (by decide)]
  decide +kernel

def swOps (v : Byte) : List Op := [.dset ryD, .write 0 (ryW 0 v)]

/-- **C55 is violated: order of the subfiles.** Group 1 writes a cell, later group 0 overwrites it. The last value is 2. However many
processes replay the file, subfile 1 is replayed after subfile 0 or at the same time; with one process the old value is left. -/
theorem C55_order_violated (enc share compact : Bool) : ∃ (a : Nat → AFile) (sub : Nat → FState) (all : List AW),
    (∀ j < 2, SubClosed ⟨enc, share⟩ [some ryD] (subTeam replayColor 1 j) (a j) (sub j)) ∧
    Interleaved ((List.range 2).map (fun j => (a j).done ++ (a j).queue.flatten)) all ∧ lastByte all 0 [0] 0 = some 2 ∧
    ∀ out, replaySub replayColor 1 2 sub out → ∃ c, out = .ok c ∧ c 0 [0] 0 = some 1 := by
  have h : ∀ enc share compact, okWith (fun s => okWith (fun stc => okWith (fun s' => okWith (fun stc' =>
      subB 1 [(0, 2)] [[(0, 2)]] s stc && subB 1 [(0, 1)] [[(0, 1)]] s' stc' &&
      okWith (fun ws => decide (ws = [⟨0, 1, ⟨[0], [1]⟩, [2]⟩, ⟨0, 1, ⟨[0], [1]⟩, [1]⟩]))
        (replaySubProc replayColor 1 2 (fun j => if j = 0 then stc else stc') 0)) (s'.1.close 5000 6000))
      (script ⟨enc, share⟩ compact 1 (swOps 1))) (s.1.close 5000 6000)) (script ⟨enc, share⟩ compact 1 (swOps 2)) = true := by
    decide +kernel
  obtain ⟨s, a1, h⟩ := okWith_iff (h enc share compact)
  obtain ⟨stc, a2, h⟩ := okWith_iff h
  obtain ⟨s', a3, h⟩ := okWith_iff h
  obtain ⟨stc', a4, h⟩ := okWith_iff h
  simp only [Bool.and_eq_true] at h
  obtain ⟨⟨b1, b2⟩, b3⟩ := h
  obtain ⟨ws, b4, b5⟩ := okWith_iff b3
  simp only [decide_eq_true_eq] at b5
  obtain ⟨c1, d1, _⟩ := sub_closed b1 (script_reach (by decide) (by decide) a1) a2 (by decide)
  obtain ⟨c2, d2, _⟩ := sub_closed b2 (script_reach (by decide) (by decide) a3) a4 (by decide)
  refine ⟨fun j => if j = 0 then s.2 else s'.2, fun j => if j = 0 then stc else stc', [ryW 0 1, ryW 0 2], ?_, ?_, by decide +kernel, ?_⟩
  · intro j hj
    rcases (show j = 0 ∨ j = 1 by omega) with rfl | rfl
    · exact c1
    · exact c2
  · have : (List.range 2).map (fun j => (if j = 0 then s.2 else s'.2).done ++ (if j = 0 then s.2 else s'.2).queue.flatten) =
        [[ryW 0 2], [ryW 0 1]] := by
      simp [List.range_succ, d1, d2]
    rw [this]
    exact .step 1 _ [] _ rfl (.step 0 _ [] _ rfl (.done (by simp)))
  · rintro out (⟨ls, l, h1, h2, h3, h4⟩ | ⟨r, hr, h1, _⟩ | ⟨r, hr, h1, _⟩)
    · obtain ⟨m, rfl⟩ := List.length_eq_one_iff.mp h1
      have := h2 0 (by simp)
      rw [b4] at this
      simp only [Res.ok.injEq, List.getElem_cons_zero] at this
      rw [interleaved_single h3, ← this, b5] at h4
      exact ⟨_, h4, by decide +kernel⟩
    · have : r = 0 := by omega
      subst this
      rw [b4] at h1; simp at h1
    · have : r = 0 := by omega
      subst this
      rw [b4] at h1; simp at h1

end Verif.Props
