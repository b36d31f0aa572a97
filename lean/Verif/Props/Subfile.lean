import Verif.Model.Subfile
import Verif.Props.ReplaySub

/-
C56: the logs of a file with subfiles survive reads and reopening.
-/

namespace Verif.Props

/-- Writes of a session, in order: `true` for a flush of data, `false` for a flush of metadata. -/
def subWrites : List Bool → SubSt → SubRes
  | [], s => (s, true)
  | b :: bs, s => match (if b then s.flush else s.metaflush) with
    | (s', true) => subWrites bs s'
    | r => r

/-- The log group has the datasets 0 to `l - 1` and 0 to `m - 1`. -/
def Logs (s : SubSt) (l m : Nat) : Prop := s.logs = some (List.range l, List.range m)

theorem subWrites_ok : ∀ (bs : List Bool) (s : SubSt) (l m : Nat), Logs s l m → s.nld = l → s.nmd = m →
    ∃ s', subWrites bs s = (s', true) ∧ Logs s' (l + bs.count true) (m + bs.count false) ∧
      s'.nld = l + bs.count true ∧ s'.nmd = m + bs.count false ∧ s'.flag = s.flag ∧ s'.main = s.main
  | [], s, l, m, h, h1, h2 => ⟨s, rfl, h, by simpa using h1, by simpa using h2, rfl, rfl⟩
  | true :: bs, s, l, m, h, h1, h2 => by
    unfold Logs at h
    have e : s.flush = ({ s with logs := some (List.range l ++ [s.nld], List.range m), nld := s.nld + 1 }, true) := by
      unfold SubSt.flush
      rw [h]
      simp [h1]
    obtain ⟨s', a1, a2, a3, a4, a5, a6⟩ := subWrites_ok bs
      { s with logs := some (List.range l ++ [s.nld], List.range m), nld := s.nld + 1 } (l + 1) m
      (by unfold Logs; simp [List.range_succ, h1]) (by simp [h1]) h2
    refine ⟨s', ?_, ?_, ?_, ?_, a5, a6⟩
    · simp only [subWrites, if_true, e]
      exact a1
    · simpa [Nat.add_assoc, Nat.add_comm 1] using a2
    · simp only [List.count_cons_self]; omega
    · simpa using a4
  | false :: bs, s, l, m, h, h1, h2 => by
    unfold Logs at h
    have e : s.metaflush = ({ s with logs := some (List.range l, List.range m ++ [s.nmd]), nmd := s.nmd + 1 }, true) := by
      unfold SubSt.metaflush
      rw [h]
      simp [h2]
    obtain ⟨s', a1, a2, a3, a4, a5, a6⟩ := subWrites_ok bs
      { s with logs := some (List.range l, List.range m ++ [s.nmd]), nmd := s.nmd + 1 } l (m + 1)
      (by unfold Logs; simp [List.range_succ, h2]) h1 (by simp [h2])
    refine ⟨s', ?_, ?_, ?_, ?_, a5, a6⟩
    · simp only [subWrites, Bool.false_eq_true, if_false, e]
      exact a1
    · simpa [Nat.add_assoc, Nat.add_comm 1] using a2
    · simpa using a3
    · simp only [List.count_cons_self]; omega

/-- **C56, partial: sessions that only write.** Whatever is flushed in the session that creates the file, in any order: all
flushes succeed, nothing is overwritten, and when the file is closed the attribute of the subfile has the numbers of data and
metadata datasets in it. So h5lreplay finds all of them (C55). -/
theorem C56_write_partial (f : SFlag) (bs : List Bool) : ∃ s, subWrites bs (SubSt.create f) = (s, true) ∧
    Logs s.close (bs.count true) (bs.count false) ∧ s.close.sub = ⟨bs.count true, bs.count false⟩ := by
  obtain ⟨s, a1, a2, a3, a4, _, _⟩ := subWrites_ok bs (SubSt.create f) 0 0 rfl rfl rfl
  refine ⟨s, a1, by simpa [Logs, SubSt.close] using a2, ?_⟩
  simp only [SubSt.close, a3, a4, Nat.zero_add]

example : (subWrites [true, true, false, true, false] (SubSt.create .trunc)).1.close =
    ⟨.trunc, some ([0, 1, 2], [0, 1]), ⟨3, 2⟩, ⟨0, 0⟩, 3, 2⟩ := by decide

/-- **C56 is violated: reading in the session that created the file.** Whatever has been written, a read that goes to the subfiles
fails; if the file was created with `H5F_ACC_TRUNC` and the subfile is found, all data in it is lost. -/
theorem C56_read_violated (f : SFlag) (hf : f ≠ .opened) (bs : List Bool) (found : Bool) :
    ((subWrites bs (SubSt.create f)).1.read found false).2 = false ∧
    (f = .trunc → ((subWrites bs (SubSt.create f)).1.read true false).1.logs = none) := by
  obtain ⟨s, a1, _, _, _, a5, _⟩ := subWrites_ok bs (SubSt.create f) 0 0 rfl rfl rfl
  rw [a1]
  simp only
  have hs : s.flag = f := a5
  constructor
  · unfold SubSt.read SubSt.openSub
    rw [hs]
    cases f with
    | opened => exact absurd rfl hf
    | trunc => cases found <;> rfl
    | excl => cases found <;> rfl
  · rintro rfl
    unfold SubSt.read SubSt.openSub
    simp [hs]

/-- **C56 is violated: reopening.** The file is written, closed and opened again. The counters are those of the main file, zero: no
metadata is found in the subfile, and if any data had been flushed the next flush fails. -/
theorem C56_reopen_violated (f : SFlag) (bs : List Bool) : ∃ s s', subWrites bs (SubSt.create f) = (s, true) ∧
    s.close.reopen true = (s', true) ∧ Logs s' (bs.count true) (bs.count false) ∧ s'.nld = 0 ∧ s'.nmd = 0 ∧
    (true ∈ bs → s'.flush.2 = false) ∧ (false ∈ bs → s'.metaflush.2 = false) := by
  obtain ⟨s, a1, a2, _, _, _, _⟩ := subWrites_ok bs (SubSt.create f) 0 0 rfl rfl rfl
  unfold Logs at a2
  simp only [Nat.zero_add] at a2
  refine ⟨s, ⟨.opened, s.logs, ⟨s.nld, s.nmd⟩, ⟨0, 0⟩, 0, 0⟩, a1, ?_, a2, rfl, rfl, ?_, ?_⟩
  · simp [SubSt.reopen, SubSt.openSub, SubSt.close, a2]
  · intro h
    have := List.count_pos_iff.mpr h
    unfold SubSt.flush
    simp [a2, this]
  · intro h
    have := List.count_pos_iff.mpr h
    unfold SubSt.metaflush
    simp [a2, this]

/-- **C56 is violated: files in directories.** The subfile that is opened is the one that was created exactly if the name of the file
has no slash. -/
theorem C56_path_violated (n : Name) (g : Nat) : openPath n g = createPath n g ↔ '/' ∉ n := by
  rw [← baseName_eq]
  unfold openPath createPath
  constructor
  · intro h
    exact (List.append_cancel_left (as := n ++ ".subfiles/".toList) (List.append_cancel_right h)).symm
  · intro h
    rw [h]

/-- A file in a directory. -/
example : '/' ∈ "d/f.h5".toList ∧ openPath "d/f.h5".toList 0 ≠ createPath "d/f.h5".toList 0 := by decide +kernel

/-- C56: the attribute of a subfile that is closed has all options of the file but subfiling. -/
theorem C56_config (config : BitVec 32) (i : Nat) :
    (subConfigClose config).getLsbD i = (config.getLsbD i && decide (i ≠ 9)) := by
  unfold subConfigClose
  by_cases h : i < 32
  · have : ∀ i < 32, (~~~ 0x200#32).getLsbD i = decide (i ≠ 9) := by decide
    rw [BitVec.getLsbD_and, this i h]
  · rw [BitVec.getLsbD_of_ge _ _ (by omega), BitVec.getLsbD_of_ge _ _ (by omega)]
    rfl

/-- **C56 is violated: options of a subfile that is not closed.** Whatever the options are, the attribute of a new subfile says that
all are off, so that its shared or encoded metadata cannot be read until the file is closed. -/
theorem C56_config_violated (config : Nat) : subConfigCreate config = 0 := by
  simp [subConfigCreate, cNot]

example : subConfigClose 0x20A#32 = 0xA#32 ∧ subConfigCreate 0x20A = 0 := by decide

end Verif.Props
