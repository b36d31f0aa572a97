import Verif.Props.SecCount
import Verif.Model.SecCountReplay

/-
C103: numbers of sections that cannot be, in h5lreplay.
-/

namespace Verif.Props

open _root_.Verif.Spec (bytesOf sectionsSaid endSaid bodyAt)

theorem wordFrom_bytes (disk : Mem) (m : Ext) (off : Nat) : m.wordFrom disk off =
    if off + 8 ≤ (bytesOf disk m).length then .ok (unle (((bytesOf disk m).drop off).take 8)) else .err := by
  unfold Ext.wordFrom
  rw [read_bytes]
  by_cases c : off + 8 ≤ (bytesOf disk m).length
  · rw [if_pos c, if_pos c]; rfl
  · rw [if_neg c, if_neg c]; rfl

theorem wordFrom_map {disk : Mem} {m : Ext} (hb : bodyAt (bytesOf disk m) ≤ m.size) {i : Nat} (hi : i ≤ sectionsSaid (bytesOf disk m)) :
    m.wordFrom disk (i * 8) = mapWord ((List.range (sectionsSaid (bytesOf disk m))).map (endSaid (bytesOf disk m))) i := by
  have hl := bytesOf_length disk m
  unfold bodyAt at hb
  rw [wordFrom_bytes, if_pos (by omega)]
  unfold mapWord
  by_cases c : i = 0
  · rw [if_pos c, c, List.length_map, List.length_range, Nat.zero_mul, List.drop_zero]
    rfl
  · rw [if_neg c, List.getElem?_map, List.getElem?_range (by omega)]
    show _ = Res.ok (endSaid _ _)
    unfold endSaid
    rw [show 8 + 8 * (i - 1) = i * 8 by omega]

/-- **C103.** With a table that fits, h5lreplay, which reads single words, is that of C101. -/
theorem C103_replay_usual {disk : Mem} {m : Ext} {np r : Nat} (hb : bodyAt (bytesOf disk m) ≤ m.size) (hs : m.size < 2 ^ 31)
    (hr : r < np) (hp : np < 2 ^ 31) (dsets : DSets) (share : Bool) :
    replayMdW dsets share disk np r m = replayMd dsets share disk np r m := by
  have hl := bytesOf_length disk m
  have hw0 := wordFrom_map hb (Nat.zero_le _)
  have hwm := fun i => @wordFrom_map disk m hb i
  unfold replayMdW replayMd
  rw [ends_bytes, hl, if_neg (by omega), Res.ok_bind]
  rw [Nat.zero_mul] at hw0
  rw [hw0]
  unfold bodyAt at hb
  generalize sectionsSaid (bytesOf disk m) = n at *
  generalize he : (List.range n).map (endSaid (bytesOf disk m)) = ends at *
  have hlen : ends.length = n := by rw [← he, List.length_map, List.length_range]
  rw [show mapWord ends 0 = .ok n by unfold mapWord; rw [if_pos rfl, hlen], Res.ok_bind]
  by_cases c0 : n = 0
  · rw [if_pos (.inl c0), if_pos (List.length_eq_zero_iff.mp (by omega))]
  · rw [if_neg (by omega), if_neg (show ¬ ends = [] from fun h => by rw [h] at hlen; exact c0 hlen.symm)]
    have hrn : r * n < 2 ^ 62 := Nat.lt_of_le_of_lt (Nat.mul_le_mul (show r ≤ 2 ^ 31 by omega) (show n ≤ 2 ^ 28 by omega)) (by decide)
    have hrn1 : (r + 1) * n < 2 ^ 62 :=
      Nat.lt_of_le_of_lt (Nat.mul_le_mul (show r + 1 ≤ 2 ^ 31 by omega) (show n ≤ 2 ^ 28 by omega)) (by decide)
    have h1 : r * n / np < n := by
      rw [Nat.div_lt_iff_lt_mul (by omega), Nat.mul_comm n np]
      exact (Nat.mul_lt_mul_right (by omega)).mpr hr
    have h2 : (r + 1) * n / np ≤ n := by
      have := firstSec_mono (nsec := n) (np := np) (show r + 1 ≤ np from hr)
      rwa [firstSec_end (by omega)] at this
    have hpart : replayPartW disk m np r n = replayPart ends np r := by
      unfold replayPartW replayPart endW startW
      simp only [hlen]
      rw [if_neg (by omega), Nat.mod_eq_of_lt (show r * n / np * 8 < 2 ^ 64 by omega), Nat.mul_div_cancel _ (by decide : 0 < 8),
        hwm _ (by omega), Nat.mod_eq_of_lt (show (r + 1) * n / np * 8 < 2 ^ 64 by omega), hwm _ h2,
        Nat.mod_eq_of_lt (show 8 * (n + 1) < 2 ^ 64 by omega),
        show r * n / np * 8 + 8 = (r * n / np + 1) * 8 by omega, hwm _ (by omega), Nat.mul_div_cancel _ (by decide : 0 < 8)]
      cases mapWord ends (r * n / np) with
      | err => rfl
      | ub => rfl
      | ok w =>
        simp only [Res.bind]
        by_cases z : r * n / np * 8 = 0
        · simp only [if_pos z, if_neg (show ¬ n = 2 ^ 63 - 1 by omega), if_neg (show ¬ 2 ^ 63 ≤ (r + 1) * n by omega)]
        · simp only [if_neg z, if_neg (show ¬ 2 ^ 63 ≤ (r + 1) * n by omega)]
    rw [hpart]

/-- **C103, violated.** From a dataset with a negative number of sections no process of h5lreplay takes anything, without an error. -/
theorem C103_replay_none_violated {disk : Mem} {m : Ext} (h8 : 8 ≤ m.size) (hn : 2 ^ 63 ≤ sectionsSaid (bytesOf disk m)) (np r : Nat)
    (dsets : DSets) (share : Bool) : replayMdW dsets share disk np r m = .ok [] := by
  have hl := bytesOf_length disk m
  unfold replayMdW
  rw [wordFrom_bytes, if_pos (by omega), Res.ok_bind, List.drop_zero]
  exact if_pos (.inr hn)

/-- **C103, violated.** One process of h5lreplay does not notice the bits 61 and 62 of the number. -/
theorem C103_replay_bits_violated {disk disk' : Mem} {m : Ext} {k : Nat} (hs : m.size < 2 ^ 31)
    (h8 : (bytesOf disk m).drop 8 = (bytesOf disk' m).drop 8) (h0 : 0 < k)
    (hk : sectionsSaid (bytesOf disk m) % 2 ^ 61 = k) (hk' : sectionsSaid (bytesOf disk' m) % 2 ^ 61 = k)
    (hn : sectionsSaid (bytesOf disk m) < 2 ^ 63 - 1) (hn' : sectionsSaid (bytesOf disk' m) < 2 ^ 63 - 1)
    (dsets : DSets) (share : Bool) : replayMdW dsets share disk' 1 0 m = replayMdW dsets share disk 1 0 m := by
  have hl := bytesOf_length disk m
  have hl' := bytesOf_length disk' m
  have hd : ∀ i, 8 ≤ i → (bytesOf disk' m).drop i = (bytesOf disk m).drop i := by
    intro i hi
    rw [show i = 8 + (i - 8) by omega, ← List.drop_drop, ← List.drop_drop, h8]
  have hpart : ∀ d n, (bytesOf d m).length = m.size → n % 2 ^ 61 = k → n < 2 ^ 63 - 1 → 8 ≤ m.size → replayPartW d m 1 0 n =
      if k * 8 + 8 ≤ m.size then .ok ⟨low32 (8 * (k + 1)), low32 (unle (((bytesOf d m).drop (k * 8)).take 8)), 1,
        high32 (unle (((bytesOf d m).drop (k * 8)).take 8))⟩ else .err := by
    intro d n l1 l2 l3 l4
    unfold replayPartW startW endW
    simp only [Nat.zero_mul, Nat.zero_div, Nat.zero_mod, Nat.zero_add, Nat.one_mul, Nat.div_one, wordFrom_bytes, l1]
    rw [if_neg (by omega), if_pos l4]
    simp only [Res.bind, if_true, if_neg (show ¬ n = 2 ^ 63 - 1 by omega), if_pos (show 1 ≤ n by omega), if_neg (show ¬ 2 ^ 63 ≤ n by omega)]
    rw [show n * 8 % 2 ^ 64 = k * 8 by omega]
    by_cases c : k * 8 + 8 ≤ m.size
    · simp only [if_pos c]
      rw [show 8 * (n + 1) % 2 ^ 64 = 8 * (k + 1) by omega]
    · simp only [if_neg c]
  unfold replayMdW
  simp only [wordFrom_bytes, hl, hl']
  by_cases c : 0 + 8 ≤ m.size
  · rw [if_pos c, if_pos c, Res.ok_bind, Res.ok_bind, List.drop_zero, List.drop_zero]
    simp only [show ∀ b : List Byte, unle (b.take 8) = sectionsSaid b from fun _ => rfl]
    rw [if_neg (show ¬ (sectionsSaid (bytesOf disk' m) = 0 ∨ _) by omega), if_neg (show ¬ (sectionsSaid (bytesOf disk m) = 0 ∨ _) by omega),
      hpart _ _ hl' hk' hn' (by omega), hpart _ _ hl hk hn (by omega)]
    by_cases c1 : k * 8 + 8 ≤ m.size
    · rw [if_pos c1, if_pos c1, Res.ok_bind, Res.ok_bind, hd _ (by omega)]
      simp only [read_bytes, hl, hl']
      rw [low32_cases (8 * (k + 1)), if_pos (show 8 * (k + 1) % 2 ^ 32 < 2 ^ 31 by omega),
        show ((8 * (k + 1) % 2 ^ 32 : Nat) : Int).toNat = 8 * (k + 1) by omega, hd _ (by omega)]
    · rw [if_neg c1, if_neg c1]; rfl
  · rw [if_neg c, if_neg c]; rfl

/-- **C103, violated.** With several processes the product with the number overflows, for the first section of the process or, if
its start can be read, for the last. -/
theorem C103_replay_overflow_violated {disk : Mem} {m : Ext} {np r : Nat} (h8 : 8 ≤ m.size) (hn : sectionsSaid (bytesOf disk m) < 2 ^ 63)
    (hr : 2 ^ 63 ≤ r * sectionsSaid (bytesOf disk m) ∨ 2 ^ 63 ≤ (r + 1) * sectionsSaid (bytesOf disk m) ∧
      np ≤ sectionsSaid (bytesOf disk m) ∧ r * sectionsSaid (bytesOf disk m) / np * 8 % 2 ^ 64 + 8 ≤ m.size)
    (dsets : DSets) (share : Bool) : replayMdW dsets share disk np r m = .ub := by
  have hl := bytesOf_length disk m
  unfold replayMdW
  rw [wordFrom_bytes, if_pos (by omega), Res.ok_bind, List.drop_zero]
  simp only [show unle ((bytesOf disk m).take 8) = sectionsSaid (bytesOf disk m) from rfl]
  rw [if_neg (by
    intro h
    rcases h with h | h
    · rw [h] at hr; omega
    · omega)]
  have hp : replayPartW disk m np r (sectionsSaid (bytesOf disk m)) = .ub := by
    unfold replayPartW
    by_cases c : 2 ^ 63 ≤ r * sectionsSaid (bytesOf disk m)
    · rw [if_pos c]
    · obtain ⟨h1, h2, h3⟩ := hr.resolve_left c
      rw [if_neg c, wordFrom_bytes, hl, if_pos h3]
      simp only [Res.bind]
      unfold startW endW
      by_cases z : r * sectionsSaid (bytesOf disk m) / np * 8 % 2 ^ 64 = 0
      · by_cases y : sectionsSaid (bytesOf disk m) = 2 ^ 63 - 1
        · simp only [if_pos z, if_pos y]
        · simp only [if_pos z, if_neg y, if_pos h2, if_pos h1]
      · simp only [if_neg z, if_pos h2, if_pos h1]
  rw [hp]
  rfl

def scTaken (np r n : Nat) : Res Nat := do return (← replayMdW [some dmD] true (scDisk n) np r scExt).length

/-- **C103, violated.** What one process, and the last of five, take from the datasets of `C103_runs_violated`. -/
theorem C103_replay_runs_violated :
    [2, 2 + 2 ^ 61, 2 + 2 ^ 63, 2 ^ 64 - 1, 2 ^ 63 - 1].map (scTaken 1 0) = [.ok 2, .ok 2, .ok 0, .ok 0, .ub] ∧
    [2 + 2 ^ 61, 2 + 2 ^ 63, 2 ^ 63 - 1].map (scTaken 5 4) = [.ub, .ok 0, .ub] ∧ scTaken 3 1 (2 + 3 * 2 ^ 61) = .ub := by
  decide +kernel

/-- Hypotheses of the theorems about h5lreplay of C103 (more of them beside `C103_runs_violated`). -/
example : bodyAt (bytesOf (scDisk 2) scExt) ≤ scExt.size ∧ scExt.size < 2 ^ 31 ∧
    sectionsSaid (bytesOf (scDisk (2 + 2 ^ 61)) scExt) % 2 ^ 61 = sectionsSaid (bytesOf (scDisk 2) scExt) % 2 ^ 61 ∧
    2 ^ 63 ≤ 4 * sectionsSaid (bytesOf (scDisk (2 + 2 ^ 61)) scExt) ∧
    2 ^ 63 ≤ (1 + 1) * sectionsSaid (bytesOf (scDisk (2 + 3 * 2 ^ 61)) scExt) ∧
    1 * sectionsSaid (bytesOf (scDisk (2 + 3 * 2 ^ 61)) scExt) / 3 * 8 % 2 ^ 64 + 8 ≤ scExt.size := by
  refine ⟨?_, ?_, ?_, ?_, ?_, ?_⟩ <;> decide +kernel

end Verif.Props
