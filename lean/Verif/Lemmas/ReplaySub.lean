import Verif.Model.ReplaySub
import Verif.Lemmas.ReplayFile
import Verif.Props.Groups

/-
Distribution of subfiles over the processes of h5lreplay.
-/

namespace Verif

open Spec (AW AFile WriteOK splitWrite lastByte Covers NoRace)
open Props (C29_groups groupCount_eq)

/-- The ranks of a group are numbered from 0. -/
theorem ranks_of (color : Nat → Nat) (c : Nat) : ∀ np, ((List.range np).filter (fun i => color i == c)).map (groupRank color) =
    List.range ((List.range np).filter (fun i => color i == c)).length
  | 0 => rfl
  | np + 1 => by
    rw [List.range_succ, List.filter_append, List.map_append, ranks_of color c np, List.length_append]
    by_cases h : color np = c
    · rw [List.filter_cons_of_pos (by simpa using h)]
      simp only [List.filter_nil, List.map_cons, List.map_nil, List.length_cons, List.length_nil]
      rw [List.range_succ]
      congr 2
      unfold groupRank
      rw [h]
    · rw [List.filter_cons_of_neg (by simpa using h)]
      simp

/-- Subfiles of a process: those whose number is that of its group modulo the number of groups. -/
theorem replaySubs_eq (color : Nat → Nat) {np nsub r : Nat} (hr : r < np) :
    replaySubs color np nsub r =
      (List.range nsub).filter (fun j => decide (j % replayNodes color np = groupId color r)) := by
  have hlt : groupId color r < replayNodes color np := by
    have := (C29_groups color np).2.1 r hr
    rwa [groupCount_eq color np r hr] at this
  obtain ⟨n, hn⟩ : ∃ n, n = replayNodes color np := ⟨_, rfl⟩
  obtain ⟨s, hs⟩ : ∃ s, s = groupId color r := ⟨_, rfl⟩
  unfold replaySubs
  rw [← hn, ← hs] at hlt ⊢
  have hlow : (List.range nsub).Pairwise (· < ·) := List.pairwise_lt_range
  have p1 : ((((List.range nsub).filter (fun i => decide (i % n = 0))).map (· + s)).filter
      (fun j => decide (j < nsub))).Pairwise (· < ·) := by
    refine List.Pairwise.filter _ ?_
    rw [List.pairwise_map]
    exact (hlow.filter _).imp (fun h => by omega)
  have p2 : ((List.range nsub).filter (fun j => decide (j % n = s))).Pairwise (· < ·) := hlow.filter _
  refine List.Perm.eq_of_pairwise (le := (· < ·)) (fun a b _ _ h1 h2 => by omega) p1 p2 ?_
  rw [List.perm_ext_iff_of_nodup (p1.imp (fun h => by omega)) (p2.imp (fun h => by omega))]
  intro j
  simp only [List.mem_filter, List.mem_map, List.mem_range, decide_eq_true_eq]
  constructor
  · rintro ⟨⟨i, ⟨_, h2⟩, rfl⟩, h3⟩
    exact ⟨h3, by rw [Nat.add_mod, h2, Nat.zero_add, Nat.mod_mod, Nat.mod_eq_of_lt hlt]⟩
  · rintro ⟨h1, h2⟩
    have hle : s ≤ j := by rw [← h2]; exact Nat.mod_le _ _
    refine ⟨⟨j - s, ⟨by omega, ?_⟩, by omega⟩, h1⟩
    have := Nat.mod_add_div j n
    rw [h2] at this
    have e : j - s = n * (j / n) := by omega
    rw [e, Nat.mul_mod_right]

/-- Processes that handle subfile `j`. -/
def subTeam (color : Nat → Nat) (np j : Nat) : Nat :=
  ((List.range np).filter (fun i => decide (groupId color i = j % replayNodes color np))).length

theorem nodes_pos (color : Nat → Nat) {np : Nat} (h : 0 < np) : 0 < replayNodes color np := by
  have := (C29_groups color np).2.1 0 h
  rw [groupCount_eq color np 0 h] at this
  unfold replayNodes
  omega

theorem group_color (color : Nat → Nat) {np j : Nat} (h : 0 < np) :
    ∃ c, ∀ i < np, groupId color i = j % replayNodes color np ↔ color i = c := by
  have hj := Nat.mod_lt j (nodes_pos color h)
  obtain ⟨r, hr, e⟩ := (C29_groups color np).2.2.2 0 h (j % replayNodes color np) (by
    rw [groupCount_eq color np 0 h]; exact hj)
  refine ⟨color r, fun i hi => ?_⟩
  rw [← e]
  exact (C29_groups color np).2.2.1 i hi r hr

theorem subTeam_eq (color : Nat → Nat) {np j r : Nat} (hr : r < np) (h : groupId color r = j % replayNodes color np) :
    replaySubnp color np r = subTeam color np j := by
  obtain ⟨c, hc⟩ := group_color color (j := j) (show 0 < np by omega)
  unfold replaySubnp subTeam
  congr 1
  apply List.filter_congr
  intro i hi
  have hi' := List.mem_range.mp hi
  rw [(hc r hr).mp h]
  have := hc i hi'
  by_cases h2 : color i = c
  · simp [h2, this.mpr h2]
  · have h4 := mt this.mp h2
    simp [h2, h4]

theorem subTeam_pos (color : Nat → Nat) {np j : Nat} (h : 0 < np) : 0 < subTeam color np j := by
  have hj := Nat.mod_lt j (nodes_pos color h)
  obtain ⟨r, hr, e⟩ := (C29_groups color np).2.2.2 0 h (j % replayNodes color np) (by
    rw [groupCount_eq color np 0 h]; exact hj)
  unfold subTeam
  rw [List.length_pos_iff]
  intro h0
  have : r ∈ (List.range np).filter (fun i => decide (groupId color i = j % replayNodes color np)) := by
    simp [hr, e]
  rw [h0] at this
  simp at this

theorem flatMap_filter_ite {α β : Type} (P : α → Bool) (f : α → List β) (l : List α) :
    (l.filter P).flatMap f = l.flatMap (fun a => if P a then f a else []) := by
  induction l with
  | nil => rfl
  | cons a l ih =>
    by_cases h : P a = true
    · rw [List.filter_cons_of_pos h, List.flatMap_cons, List.flatMap_cons, ih, if_pos h]
    · rw [List.filter_cons_of_neg h, List.flatMap_cons, ih, if_neg h]
      rfl

/-- Everything done by all processes is what the teams of the subfiles do. -/
theorem subs_perm {β : Type} (color : Nat → Nat) {np nsub : Nat} (hnp : 0 < np) (F : Nat → Nat → Nat → List β) :
    ((List.range np).flatMap (fun r => (replaySubs color np nsub r).flatMap
      (fun j => F j (replaySubnp color np r) (groupRank color r)))).Perm
    ((List.range nsub).flatMap (fun j => (List.range (subTeam color np j)).flatMap (F j (subTeam color np j)))) := by
  have e1 : (List.range np).flatMap (fun r => (replaySubs color np nsub r).flatMap
      (fun j => F j (replaySubnp color np r) (groupRank color r))) =
      (List.range np).flatMap (fun r => (List.range nsub).flatMap (fun j =>
        if groupId color r = j % replayNodes color np then F j (subTeam color np j) (groupRank color r) else [])) := by
    rw [List.flatMap_def, List.flatMap_def]
    congr 1
    apply List.map_congr_left
    intro r hr
    have hr' := List.mem_range.mp hr
    rw [replaySubs_eq color hr', flatMap_filter_ite]
    rw [List.flatMap_def, List.flatMap_def]
    congr 1
    apply List.map_congr_left
    intro j _
    by_cases h : groupId color r = j % replayNodes color np
    · rw [if_pos (by simpa using h.symm), if_pos h, subTeam_eq color hr' h]
    · rw [if_neg (by simpa using fun h2 => h h2.symm), if_neg h]
  rw [e1]
  refine (flatMap_swap _ _ _).trans (List.Perm.of_eq ?_)
  rw [List.flatMap_def, List.flatMap_def]
  congr 1
  apply List.map_congr_left
  intro j _
  obtain ⟨c, hc⟩ := group_color color (j := j) hnp
  have e2 : (List.range np).filter (fun i => decide (groupId color i = j % replayNodes color np)) =
      (List.range np).filter (fun i => color i == c) := by
    apply List.filter_congr
    intro i hi
    have := hc i (List.mem_range.mp hi)
    by_cases h2 : color i = c
    · simp [h2, this.mpr h2]
    · have h4 := mt this.mp h2
      simp [h2, h4]
  have e3 := flatMap_filter_ite (fun r => decide (groupId color r = j % replayNodes color np))
    (fun r => F j (subTeam color np j) (groupRank color r)) (List.range np)
  simp only [decide_eq_true_eq] at e3
  rw [← e3, e2]
  have e4 : subTeam color np j = ((List.range np).filter (fun i => color i == c)).length := by
    unfold subTeam; rw [e2]
  have e5 := ranks_of color c np
  rw [← e4] at e5
  conv_rhs => rw [← e5]
  rw [List.flatMap_map]

/-- Every member of a team takes part. -/
theorem team_member (color : Nat → Nat) {np nsub j s : Nat} (hnp : 0 < np) (hj : j < nsub) (hs : s < subTeam color np j) :
    ∃ r < np, j ∈ replaySubs color np nsub r ∧ replaySubnp color np r = subTeam color np j ∧ groupRank color r = s := by
  obtain ⟨c, hc⟩ := group_color color (j := j) hnp
  have e2 : (List.range np).filter (fun i => decide (groupId color i = j % replayNodes color np)) =
      (List.range np).filter (fun i => color i == c) := by
    apply List.filter_congr
    intro i hi
    have := hc i (List.mem_range.mp hi)
    by_cases h2 : color i = c
    · simp [h2, this.mpr h2]
    · have h4 := mt this.mp h2
      simp [h2, h4]
  have e5 := ranks_of color c np
  rw [← e2] at e5
  have hs' : s ∈ List.range (subTeam color np j) := List.mem_range.mpr hs
  unfold subTeam at hs'
  rw [← e5] at hs'
  obtain ⟨r, h1, h2⟩ := List.mem_map.mp hs'
  simp only [List.mem_filter, List.mem_range, decide_eq_true_eq] at h1
  refine ⟨r, h1.1, ?_, subTeam_eq color h1.1 h1.2, h2⟩
  rw [replaySubs_eq color h1.1]
  simp [hj, h1.2]

end Verif
