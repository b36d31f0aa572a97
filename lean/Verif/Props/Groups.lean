import Verif.Model.Groups

/-
C29 (groups), C30 (reading subfiled data), C43 (collective calls).
-/

namespace Verif.Props

/-! ### C29 -/

theorem groupRank_zero (color : Nat → Nat) (r : Nat) : groupRank color r = 0 ↔ ∀ i < r, color i ≠ color r := by
  unfold groupRank
  rw [List.length_eq_zero_iff, List.filter_eq_nil_iff]
  simp

theorem root_le (color : Nat → Nat) (r : Nat) : groupRoot color r ≤ r := by
  unfold groupRoot
  cases h : (List.range (r + 1)).find? (fun i => color i == color r) with
  | none => simp
  | some i =>
    have := List.mem_of_find?_eq_some h
    simp at this ⊢
    omega

theorem root_color (color : Nat → Nat) (r : Nat) : color (groupRoot color r) = color r := by
  unfold groupRoot
  cases h : (List.range (r + 1)).find? (fun i => color i == color r) with
  | none => simp
  | some i =>
    have := List.find?_some h
    simpa using this

theorem root_first (color : Nat → Nat) (r i : Nat) (hi : i < groupRoot color r) : color i ≠ color r := by
  have hle := root_le color r
  unfold groupRoot at hi hle
  cases h : (List.range (r + 1)).find? (fun i => color i == color r) with
  | none =>
    rw [h] at hle hi
    rw [List.find?_eq_none] at h
    have := h i (by simp at hi ⊢; omega)
    simpa using this
  | some j =>
    rw [h] at hi
    simp only [Option.getD_some] at hi
    rw [List.find?_range_eq_some] at h
    have := h.2.2 i hi
    simpa using this

theorem root_leader (color : Nat → Nat) (r : Nat) : groupRank color (groupRoot color r) = 0 := by
  rw [groupRank_zero]
  intro i hi
  rw [root_color color r]
  exact root_first color r i hi

theorem root_eq {color : Nat → Nat} {i j : Nat} (h : color i = color j) : groupRoot color i = groupRoot color j := by
  rcases Nat.lt_trichotomy (groupRoot color i) (groupRoot color j) with hl | he | hl
  · exact absurd ((root_color color i).trans h) (root_first color j _ hl)
  · exact he
  · exact absurd ((root_color color j).trans h.symm) (root_first color i _ hl)

theorem leaders_succ (color : Nat → Nat) (n : Nat) :
    leaders color (n + 1) = leaders color n + if groupRank color n = 0 then 1 else 0 := by
  unfold leaders
  rw [List.range_succ, List.filter_append, List.length_append]
  by_cases h : groupRank color n = 0 <;> simp [h]

theorem leaders_mono (color : Nat → Nat) {m n : Nat} (h : m ≤ n) : leaders color m ≤ leaders color n := by
  induction h with
  | refl => exact Nat.le_refl _
  | step _ ih => rw [leaders_succ]; omega

theorem leaders_strict (color : Nat → Nat) {m n : Nat} (h : m < n) (hm : groupRank color m = 0) :
    leaders color m < leaders color n := by
  have := leaders_succ color m
  rw [if_pos hm] at this
  have h2 := leaders_mono color (show m + 1 ≤ n from h)
  omega

theorem groupCount_eq (color : Nat → Nat) (np r : Nat) (h : r < np) : groupCount color np r = leaders color np := by
  unfold groupCount leaders
  rw [← List.length_append, ← List.filter_append]
  congr 2
  have : List.range r = (List.range np).take r := by
    rw [List.take_range, Nat.min_eq_left (by omega)]
  rw [this, List.take_append_drop]

/-- Every number below the count is the group number of a rank that is first in its group. -/
theorem leaders_onto (color : Nat → Nat) : ∀ (n g : Nat), g < leaders color n →
    ∃ r < n, groupRank color r = 0 ∧ leaders color r = g
  | 0, g, h => by simp [leaders] at h
  | n + 1, g, h => by
    rw [leaders_succ] at h
    by_cases hg : g < leaders color n
    · obtain ⟨r, hr, h1, h2⟩ := leaders_onto color n g hg
      exact ⟨r, by omega, h1, h2⟩
    · by_cases hn : groupRank color n = 0
      · rw [if_pos hn] at h
        exact ⟨n, by omega, hn, by omega⟩
      · rw [if_neg hn] at h
        omega

theorem root_self {color : Nat → Nat} {r : Nat} (h : groupRank color r = 0) : groupRoot color r = r := by
  have hle := root_le color r
  rcases Nat.lt_or_eq_of_le hle with hl | he
  · exact absurd (root_color color r) ((groupRank_zero color r).mp h _ hl)
  · exact he

/-- C29: whatever the ranks are grouped by (a number of subfiles or nodes), all ranks compute the same number of groups,
group numbers are below it, two ranks have the same number exactly if they are in the same communicator, and every group
has a rank. -/
theorem C29_groups (color : Nat → Nat) (np : Nat) :
    (∀ i < np, ∀ j < np, groupCount color np i = groupCount color np j) ∧
    (∀ i < np, groupId color i < groupCount color np i) ∧
    (∀ i < np, ∀ j < np, groupId color i = groupId color j ↔ color i = color j) ∧
    (∀ i < np, ∀ g < groupCount color np i, ∃ j < np, groupId color j = g) := by
  refine ⟨?_, ?_, ?_, ?_⟩
  · intro i hi j hj
    rw [groupCount_eq _ _ _ hi, groupCount_eq _ _ _ hj]
  · intro i hi
    rw [groupCount_eq _ _ _ hi]
    exact leaders_strict color (Nat.lt_of_le_of_lt (root_le color i) hi) (root_leader color i)
  · intro i hi j hj
    constructor
    · intro h
      rcases Nat.lt_trichotomy (groupRoot color i) (groupRoot color j) with hl | he | hl
      · have := leaders_strict color hl (root_leader color i)
        unfold groupId at h; omega
      · rw [← root_color color i, he, root_color color j]
      · have := leaders_strict color hl (root_leader color j)
        unfold groupId at h; omega
    · intro h
      unfold groupId
      rw [root_eq h]
  · intro i hi g hg
    rw [groupCount_eq _ _ _ hi] at hg
    obtain ⟨r, hr, h1, h2⟩ := leaders_onto color np g hg
    refine ⟨r, hr, ?_⟩
    unfold groupId
    rw [root_self h1, h2]

/-- Leaders of a colouring that grows by steps of at most one. -/
theorem leaders_step {color : Nat → Nat} (h0 : color 0 = 0) (h1 : ∀ r, color r ≤ color (r + 1) ∧ color (r + 1) ≤ color r + 1) :
    ∀ r, leaders color (r + 1) = color r + 1
  | 0 => by
    rw [leaders_succ, if_pos ((groupRank_zero color 0).mpr (by simp)), h0]
    simp [leaders]
  | r + 1 => by
    have mono : ∀ i j, i ≤ j → color i ≤ color j := by
      intro i j h
      induction h with
      | refl => exact Nat.le_refl _
      | step _ ih => exact Nat.le_trans ih (h1 _).1
    rw [leaders_succ, leaders_step h0 h1 r]
    have hs := h1 r
    by_cases he : color (r + 1) = color r
    · rw [if_neg, he]
      rw [groupRank_zero]
      intro h
      exact h r (by omega) he.symm
    · rw [if_pos]
      · omega
      · rw [groupRank_zero]
        intro i hi
        have := mono i r (by omega)
        omega

/-- The colour of the code, without the `int` limit. -/
def divColor (np ngroup r : Nat) : Nat := r * ngroup / np

theorem divColor_step {np ngroup : Nat} (hnp : 0 < np) (hg : ngroup ≤ np) (r : Nat) :
    divColor np ngroup r ≤ divColor np ngroup (r + 1) ∧ divColor np ngroup (r + 1) ≤ divColor np ngroup r + 1 := by
  unfold divColor
  constructor
  · exact Nat.div_le_div_right (Nat.mul_le_mul_right _ (by omega))
  · calc (r + 1) * ngroup / np ≤ (r * ngroup + np) / np := Nat.div_le_div_right (by rw [Nat.add_mul]; omega)
      _ = r * ngroup / np + 1 := Nat.add_div_right _ hnp

theorem divColor_inj {np ngroup : Nat} (hnp : 0 < np) (hg : np ≤ ngroup) {i j : Nat} (h : i < j) :
    divColor np ngroup i < divColor np ngroup j := by
  unfold divColor
  have h1 : (i * ngroup + np) / np ≤ j * ngroup / np := by
    refine Nat.div_le_div_right ?_
    have : (i + 1) * ngroup ≤ j * ngroup := Nat.mul_le_mul_right _ h
    rw [Nat.add_mul] at this
    omega
  rw [Nat.add_div_right _ hnp] at h1
  omega

/-- C29: with a requested number of subfiles, the number of groups is that number (at most one per rank), groups are
contiguous in rank order, and the group numbers of the ranks are in order; for all numbers for which the product does not
overflow. -/
theorem C29_split_partial {np ngroup : Nat} (hnp : 0 < np) (hg : 0 < ngroup) (hov : (np - 1) * ngroup < 2 ^ 31) :
    ∃ color : Nat → Nat, (∀ r < np, splitColor np ngroup r = .ok (color r)) ∧
      (∀ r < np, groupCount color np r = min ngroup np) ∧
      (∀ i j, i ≤ j → j < np → groupId color i ≤ groupId color j) ∧
      (∀ i j, i + 1 = j → j < np → groupId color j ≤ groupId color i + 1) := by
  refine ⟨divColor np ngroup, ?_, ?_, ?_, ?_⟩
  · intro r hr
    unfold splitColor
    rw [if_pos]
    · rfl
    · have : r * ngroup ≤ (np - 1) * ngroup := Nat.mul_le_mul_right _ (by omega)
      omega
  · intro r hr
    rw [groupCount_eq _ _ _ hr]
    obtain ⟨n, rfl⟩ : ∃ n, np = n + 1 := ⟨np - 1, by omega⟩
    by_cases hle : ngroup ≤ n + 1
    · rw [leaders_step (by simp [divColor]) (divColor_step hnp hle), Nat.min_eq_left hle]
      unfold divColor
      have h1 : n * ngroup = ngroup * (n + 1) - ngroup := by
        rw [Nat.mul_add, Nat.mul_comm n ngroup]; omega
      have h2 : n * ngroup / (n + 1) = ngroup - 1 := by
        rw [Nat.div_eq_iff hnp]
        obtain ⟨g, rfl⟩ : ∃ g, ngroup = g + 1 := ⟨ngroup - 1, by omega⟩
        simp only [Nat.add_sub_cancel]
        constructor
        · rw [Nat.mul_add, Nat.mul_add, Nat.mul_comm n g]; omega
        · rw [Nat.mul_add, Nat.mul_add, Nat.mul_comm n g]; omega
      rw [h2]; omega
    · rw [Nat.min_eq_right (by omega)]
      have all : ∀ m, leaders (divColor (n + 1) ngroup) m = m := by
        intro m
        induction m with
        | zero => simp [leaders]
        | succ m ih =>
          rw [leaders_succ, ih, if_pos]
          rw [groupRank_zero]
          intro i hi
          exact Nat.ne_of_lt (divColor_inj hnp (by omega) hi)
      exact all _
  · intro i j hij _
    unfold groupId
    refine leaders_mono _ ?_
    rcases Nat.lt_or_ge (groupRoot (divColor np ngroup) j) (groupRoot (divColor np ngroup) i) with hl | hge
    · exfalso
      have mono : ∀ a b, a ≤ b → divColor np ngroup a ≤ divColor np ngroup b := fun a b h =>
        Nat.div_le_div_right (Nat.mul_le_mul_right _ h)
      have c1 := root_color (divColor np ngroup) j
      have c2 := root_first (divColor np ngroup) i _ hl
      have c3 := mono _ _ (Nat.le_trans (Nat.le_of_lt hl) (root_le _ i))
      have c4 := mono i j hij
      rw [c1] at c2 c3
      omega
    · exact hge
  · intro i j hij _
    subst hij
    unfold groupId
    rcases Nat.lt_or_ge (groupRoot (divColor np ngroup) (i + 1)) (i + 1) with hl | hge
    · have hroot : groupRoot (divColor np ngroup) (i + 1) ≤ groupRoot (divColor np ngroup) i := by
        rcases Nat.lt_or_ge (groupRoot (divColor np ngroup) i) (groupRoot (divColor np ngroup) (i + 1)) with h2 | h2
        · have mono : ∀ a b, a ≤ b → divColor np ngroup a ≤ divColor np ngroup b := fun a b h =>
            Nat.div_le_div_right (Nat.mul_le_mul_right _ h)
          have c1 := root_color (divColor np ngroup) (i + 1)
          have c2 := root_first (divColor np ngroup) (i + 1) _ h2
          have c3 := mono _ i (show groupRoot (divColor np ngroup) (i + 1) ≤ i by omega)
          have c4 := mono i (i + 1) (by omega)
          have c5 := root_color (divColor np ngroup) i
          rw [c5] at c2
          omega
        · exact h2
      have := leaders_mono (divColor np ngroup) hroot
      omega
    · have he : groupRoot (divColor np ngroup) (i + 1) = i + 1 := Nat.le_antisymm (root_le _ _) hge
      rw [he]
      -- leaders below i + 1 belong to groups up to that of rank i
      have mono : ∀ a b, a ≤ b → divColor np ngroup a ≤ divColor np ngroup b := fun a b h =>
        Nat.div_le_div_right (Nat.mul_le_mul_right _ h)
      have key : ∀ n, groupRoot (divColor np ngroup) i < n → n ≤ i + 1 →
          leaders (divColor np ngroup) n ≤ leaders (divColor np ngroup) (groupRoot (divColor np ngroup) i) + 1 := by
        intro n hn hni
        induction n with
        | zero => omega
        | succ n ih =>
          rw [leaders_succ]
          by_cases hlast : groupRoot (divColor np ngroup) i = n
          · rw [hlast]
            split <;> omega
          · have := ih (by omega) (by omega)
            rw [if_neg]
            · omega
            · rw [groupRank_zero]
              intro h
              refine h (groupRoot (divColor np ngroup) i) (by omega) ?_
              have c1 := mono (groupRoot (divColor np ngroup) i) n (by omega)
              have c2 := mono n i (by omega)
              have c3 := root_color (divColor np ngroup) i
              omega
      exact key (i + 1) (by have := root_le (divColor np ngroup) i; omega) (Nat.le_refl _)

/-- C29 is violated for every other number: the product overflows on the last rank. -/
theorem C29_split_violated {np ngroup : Nat} (hnp : 0 < np) (hov : 2 ^ 31 ≤ (np - 1) * ngroup) :
    ∃ r < np, splitColor np ngroup r = .ub := by
  refine ⟨np - 1, by omega, ?_⟩
  unfold splitColor
  rw [if_neg (by omega)]

example : splitColor 3 (2 ^ 30) 2 = .ub := by decide

example : (List.range 7).map (groupId (divColor 7 3)) = [0, 0, 0, 1, 1, 2, 2] ∧ groupCount (divColor 7 3) 7 4 = 3 := by
  decide

/-- Ranks on three nodes, not in rank order. -/
example : (List.range 6).map (groupId (fun r => [5, 2, 5, 9, 2, 9].getD r 0)) = [0, 1, 0, 2, 1, 2] := by decide

/-! ### C43 -/

/-- The calls on one communicator. -/
def callsOn (c : Comm) (l : List (Coll × Comm)) : List Coll := (l.filter (fun x => x.2 == c)).map Prod.fst

/-- Rank `r` is in communicator `c`. -/
def memberOf (color : Nat → Nat) (np r : Nat) : Comm → Prop
  | .world => r < np
  | .group g => r < np ∧ color r = g

/-- All members of every communicator make the same calls on it. -/
def CollectiveOK (color : Nat → Nat) (np : Nat) (size : Nat → Nat) : Prop :=
  ∀ c i j, memberOf color np i c → memberOf color np j c →
    callsOn c (flushCalls color np size i) = callsOn c (flushCalls color np size j)

theorem world_calls (color : Nat → Nat) (np : Nat) (size : Nat → Nat) (r : Nat) :
    callsOn .world (flushCalls color np size r) = if 0 < groupMeta color np size (color r) then [.barrier] else [] := by
  by_cases h : 0 < groupMeta color np size (color r) <;> simp [callsOn, flushCalls, h]

/-- C43: the calls of a metadata flush match on all communicators exactly if every group has metadata or none has; calls on
the group communicators always match. -/
theorem C43_collective_partial (color : Nat → Nat) (np : Nat) (size : Nat → Nat) :
    (∀ g i j, memberOf color np i (.group g) → memberOf color np j (.group g) →
      callsOn (.group g) (flushCalls color np size i) = callsOn (.group g) (flushCalls color np size j)) ∧
    (CollectiveOK color np size ↔
      (∀ r < np, 0 < groupMeta color np size (color r)) ∨ (∀ r < np, groupMeta color np size (color r) = 0)) := by
  have hgrp : ∀ g i j, memberOf color np i (.group g) → memberOf color np j (.group g) →
      callsOn (.group g) (flushCalls color np size i) = callsOn (.group g) (flushCalls color np size j) := by
    intro g i j hi hj
    have e : color i = color j := hi.2.trans hj.2.symm
    unfold flushCalls
    rw [e]
  refine ⟨hgrp, ?_, ?_⟩
  · intro h
    by_cases hex : ∃ r < np, 0 < groupMeta color np size (color r)
    · left
      obtain ⟨r, hr, hpos⟩ := hex
      intro q hq
      have := h .world r q hr hq
      rw [world_calls, world_calls, if_pos hpos] at this
      by_cases hz : 0 < groupMeta color np size (color q)
      · exact hz
      · rw [if_neg hz] at this; simp at this
    · right
      intro r hr
      exact Nat.eq_zero_of_not_pos (fun hp => hex ⟨r, hr, hp⟩)
  · intro h c i j hi hj
    cases c with
    | world =>
      rw [world_calls, world_calls]
      rcases h with h | h
      · rw [if_pos (h i hi), if_pos (h j hj)]
      · rw [if_neg (by have := h i hi; omega), if_neg (by have := h j hj; omega)]
    | group g => exact hgrp g i j hi hj

/-- C43: without subfiling (one group) the calls always match. -/
theorem C43_single_partial (np : Nat) (size : Nat → Nat) : CollectiveOK (fun _ => 0) np size := by
  refine (C43_collective_partial _ np size).2.mpr ?_
  by_cases h : 0 < groupMeta (fun _ => 0) np size 0
  · exact .inl (fun _ _ => h)
  · exact .inr (fun _ _ => Nat.eq_zero_of_not_pos h)

/-- C43 is violated with two groups of which only the first has written: its ranks wait in a barrier that the others never
enter. -/
theorem C43_collective_violated : ∃ color np size, ¬ CollectiveOK color np size := by
  refine ⟨divColor 4 2, 4, (fun r => if r = 0 then 44 else 0), ?_⟩
  intro h
  have := h .world 0 2 (show 0 < 4 by decide) (show 2 < 4 by decide)
  revert this
  decide

example : CollectiveOK (divColor 4 2) 4 (fun _ => 44) :=
  (C43_collective_partial _ _ _).2.mpr (.inl (by decide))

/-! ### C30 -/

/-- C30: the loop opens every subfile exactly once, that of the own group last. -/
theorem C30_opens {ngroup gid : Nat} (h : gid < ngroup) :
    (readOpens ngroup gid).Nodup ∧ (∀ g, g ∈ readOpens ngroup gid ↔ g < ngroup) ∧
    (readOpens ngroup gid).getLast? = some gid := by
  have inj : ∀ i < ngroup, ∀ j < ngroup, (gid + (i + 1)) % ngroup = (gid + (j + 1)) % ngroup → i = j := by
    intro i hi j hj he
    have h1 : ∀ k < ngroup, (gid + (k + 1)) % ngroup =
        if gid + (k + 1) < ngroup then gid + (k + 1) else gid + (k + 1) - ngroup := by
      intro k hk
      split
      · rename_i hl; exact Nat.mod_eq_of_lt hl
      · rename_i hl
        rw [Nat.mod_eq_sub_mod (by omega), Nat.mod_eq_of_lt (by omega)]
    rw [h1 i hi, h1 j hj] at he
    split at he <;> split at he <;> omega
  refine ⟨?_, ?_, ?_⟩
  · unfold readOpens
    rw [List.Nodup, List.pairwise_map]
    refine List.Pairwise.imp_of_mem ?_ List.nodup_range
    intro i j hi hj hne he
    exact hne (inj i (by simpa using hi) j (by simpa using hj) he)
  · intro g
    unfold readOpens
    rw [List.mem_map]
    constructor
    · rintro ⟨i, _, rfl⟩
      exact Nat.mod_lt _ (by omega)
    · intro hg
      by_cases hgt : gid < g
      · refine ⟨g - gid - 1, by simp; omega, ?_⟩
        rw [show gid + (g - gid - 1 + 1) = g by omega, Nat.mod_eq_of_lt hg]
      · refine ⟨g + ngroup - gid - 1, by simp; omega, ?_⟩
        rw [show gid + (g + ngroup - gid - 1 + 1) = g + ngroup by omega, Nat.add_mod_right, Nat.mod_eq_of_lt hg]
  · unfold readOpens
    obtain ⟨n, rfl⟩ : ∃ n, ngroup = n + 1 := ⟨ngroup - 1, by omega⟩
    rw [List.range_succ, List.map_append]
    simp only [List.map_cons, List.map_nil, List.getLast?_append, List.getLast?_singleton, Option.some_or,
      Option.some.injEq]
    rw [Nat.add_mod_right, Nat.mod_eq_of_lt h]

/-- C30: without subfiling, or when reading a single subfile, the read is performed, on the file of the own group. -/
theorem C30_single_partial (single : Bool) (gid : Nat) :
    readPerforms false single gid = [gid] ∧ readPerforms true true gid = [gid] := by
  cases single <;> exact ⟨rfl, rfl⟩

/-- C30 is violated: with subfiling, however many groups there are, no subfile is read. -/
theorem C30_read_violated (ngroup gid : Nat) (h : gid < ngroup) :
    ∃ g, g ∈ readOpens ngroup gid ∧ g ∉ readPerforms true false gid :=
  ⟨gid, ((C30_opens h).2.1 gid).mpr h, by simp [readPerforms]⟩

/-- C30 is violated: the number of groups used by the reader is the configuration word, not the stored number.  With two
subfiles and otherwise default options the reader uses 522. -/
theorem C30_ngroup_violated : ∃ config ngroup : Int, openNgroup (fileAttr 1 1 1 config ngroup) ≠ ngroup ∧
    openNgroup (fileAttr 1 1 1 config ngroup) = 522 :=
  ⟨0x20A, 2, by decide, by decide⟩

example : readOpens 4 1 = [2, 3, 0, 1] := by decide

end Verif.Props
