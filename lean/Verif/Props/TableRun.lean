import Verif.Props.Table
import Verif.Props.DamageRun

/-
Cases for C99.
-/

namespace Verif.Props

open _root_.Verif.Spec (bytesOf sectionsSaid endSaid bodyAt SameBody OnePart found WholeEntries NamedGone)

/-- A metadata dataset of the sections that the table `ends` says, with the entries of two writes of cell 1. -/
def tbBytes (ends : List Nat) : List Byte := leN 8 ends.length ++ putWords ends ++ dmP ++ dmP
def tbExt (ends : List Nat) : Ext := ⟨100, (tbBytes ends).length⟩
def tbState (compact : Bool) (lim : Option Nat) (ends : List Nat) : FState :=
  { (FState.create ⟨true, true⟩ compact lim 1 (writeAt (fun _ => 0) 100 (tbBytes ends))).addDset dmD with mds := [tbExt ends] }
def tbQ : RReq := ⟨0, dmD, [⟨[1], [1]⟩], 0⟩

/-- How many pieces a read of cell 1 finds. -/
def tbFound (compact : Bool) (lim : Option Nat) (ends : List Nat) : Res Nat := do
  let hs ← found ((tbState compact lim ends).search 5 0 [tbQ])
  return hs.length

/-- **C99, violated.** The writes of one metadata dataset: with the right table all reads find both; with an end that is too
small, in the middle of an entry, before the table, behind the dataset, and with a table of no sections, loading as a whole
still finds both, and loading in parts loses the second, is undefined, is undefined, and fails. -/
theorem C99_lost_violated (compact : Bool) :
    ([[68, 112], [68, 68], [88, 112], [15], [200], []].map (tbFound compact none) = List.replicate 6 (.ok 2)) ∧
    ([[68, 112], [68, 68], [88, 112], [15], [200], []].map (tbFound compact (some 40)) = [.ok 2, .ok 1, .ub, .ub, .err, .err]) ∧
    ([[68, 112], [68, 68], [88, 112], [15], [200], []].map (tbFound compact (some 1000)) = [.ok 2, .ok 1, .ok 2, .ub, .err, .err]) := by
  cases compact <;> decide +kernel

/-- Hypotheses of `C99_whole` and `C99_inner`. -/
example : SameBody (tbBytes [68, 112]) (tbBytes [88, 112]) ∧ tbBytes [68, 112] ≠ tbBytes [88, 112] ∧
    OnePart 1000 (tbBytes [68, 112]) ∧ OnePart 1000 (tbBytes [88, 112]) ∧ endSaid (tbBytes [68, 112]) 1 = 112 ∧
    endSaid (tbBytes [88, 112]) 1 = 112 := by
  refine ⟨⟨?_, ?_, ?_, ?_⟩, ?_, ⟨?_, ?_⟩, ⟨?_, ?_⟩, ?_, ?_⟩
  case refine_7 | refine_9 =>
    intro k k1 k2
    have k3 : k < 2 := Nat.lt_of_lt_of_le k2 (by decide +kernel)
    have : k = 1 := by omega
    subst this
    decide +kernel
  all_goals decide +kernel

/-- Hypotheses of `C99_behind_violated`: the dataset is cut after the first entry. -/
example : (∀ m ∈ (tbState true (some 1000) [68, 68]).mds, 8 ≤ 68 ∧ 68 ≤ m.size ∧
      bodyAt ((bytesOf (tbState true (some 1000) [68, 68]).disk m).take 68) ≤ 68 ∧
      ∀ k < sectionsSaid ((bytesOf (tbState true (some 1000) [68, 68]).disk m).take 68),
        endSaid ((bytesOf (tbState true (some 1000) [68, 68]).disk m).take 68) k ≤ 68) := by
  intro m hm
  have : m = tbExt [68, 68] := by simpa [tbState] using hm
  subst this
  refine ⟨by omega, by decide +kernel, by decide +kernel, fun k hk => ?_⟩
  have k3 : k < 2 := Nat.lt_of_lt_of_le hk (by decide +kernel)
  have : k = 0 ∨ k = 1 := by omega
  rcases this with rfl | rfl <;> decide +kernel

/-- Hypotheses of `C99_last_violated`, `C99_none_violated` and `C99_inside_violated`: in front one dataset with the right table, behind it
the damaged one. -/
example (compact : Bool) : (∃ v, (tbState compact (some 40) [68, 112]).search 5 0 [tbQ] = .ok v) ∧
    OnePart 40 (tbBytes [15]) ∧ endSaid (tbBytes [15]) 0 < bodyAt (tbBytes [15]) ∧ bodyAt (tbBytes [15]) ≤ (tbBytes [15]).length ∧
    OnePart 40 (tbBytes [200]) ∧ (tbBytes [200]).length < endSaid (tbBytes [200]) 0 ∧ sectionsSaid (tbBytes []) = 0 ∧
    WholeEntries [dmP] ∧ (∀ ix : Idx, ∃ ix', ix.parse [some dmD] true [dmP].flatten = .ok ix') ∧
    (tbBytes [88, 112]).drop (bodyAt (tbBytes [88, 112])) = [dmP].flatten ++ dmP.take 20 ++ dmP.drop 20 ∧
    ¬ NamedGone [some dmD] (dmP.take 20) ∧
    endSaid (tbBytes [88, 112]) 0 = bodyAt (tbBytes [88, 112]) + ([dmP].flatten ++ dmP.take 20).length ∧
    2 ≤ sectionsSaid (tbBytes [88, 112]) ∧ bodyAt (tbBytes [88, 112]) + 40 < endSaid (tbBytes [88, 112]) 1 := by
  refine ⟨?_, ⟨?_, ?_⟩, ?_, ?_, ⟨?_, ?_⟩, ?_, ?_, dm_tiles, ?_, ?_, ?_, ?_, ?_, ?_⟩
  · have h : okWith (fun _ => true) ((tbState compact (some 40) [68, 112]).search 5 0 [tbQ]) = true := by
      cases compact <;> decide +kernel
    cases e : (tbState compact (some 40) [68, 112]).search 5 0 [tbQ] with
    | ok v => exact ⟨v, rfl⟩
    | err => rw [e] at h; simp [okWith] at h
    | ub => rw [e] at h; simp [okWith] at h
  case refine_3 | refine_7 =>
    intro k k1 k2
    have k3 : k < 1 := Nat.lt_of_lt_of_le k2 (by decide +kernel)
    omega
  case refine_10 =>
    intro ix
    cases ix with
    | list es =>
      have : ∃ v, parseL [some dmD] true [dmP].flatten = .ok v :=
        ⟨[⟨⟨44, 0, Flags.ofNat 0, 0, 1⟩, [⟨[1], [1], 0⟩], 1⟩], by decide +kernel⟩
      obtain ⟨v, hv⟩ := this
      exact ⟨_, by unfold Idx.parse; simp only; rw [hv]; rfl⟩
    | comp es =>
      have : ∃ v, parseC [some dmD] true [dmP].flatten = .ok v := ⟨[⟨0, -1, some (1, [1, 1]), 0, 1, 1⟩], by decide +kernel⟩
      obtain ⟨v, hv⟩ := this
      exact ⟨_, by unfold Idx.parse; simp only; rw [hv]; rfl⟩
  case refine_12 =>
    rintro ⟨n, h1, h2⟩
    cases n with
    | zero => simp at h2
    | succ n => simp at h2
  all_goals decide +kernel

end Verif.Props
