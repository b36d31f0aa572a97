import Verif.Props.TableTools
import Verif.Model.SecCount

/-
C103: numbers of sections that cannot be.
-/

namespace Verif.Props

open _root_.Verif.Spec (bytesOf sectionsSaid endSaid)

theorem words_len : ∀ (n : Nat) (b : List Byte), (words n b).length = n
  | 0, _ => rfl
  | n + 1, b => by rw [words, List.length_cons, words_len n]

theorem scanW_all {start lim n : Nat} : ∀ {os : List Nat} {i : Nat}, i + os.length = n → scanW start lim n i os = .ok (partEnd start lim i os)
  | [], i, h => by rw [scanW, if_neg (by rw [List.length_nil] at h; omega), partEnd]
  | o :: os, i, h => by
    rw [List.length_cons] at h
    rw [scanW, if_pos (by omega), partEnd]
    by_cases c : o < start ∨ lim < o - start
    · rw [if_pos c, if_pos c]
    · rw [if_neg c, if_neg c, scanW_all (by omega)]

theorem wordAt_in {offs : List Nat} {i : Nat} (h : i < offs.length) : wordAt offs i = .ok (offs.getD i 0) := by
  unfold wordAt
  simp [List.getD, h]

/-- **C103.** For numbers below 2^61 - 1 nothing is lost: the loads and h5ldump are those of C99 and C101. -/
theorem C103_usual {disk : Mem} {m : Ext} (h : sectionsSaid (bytesOf disk m) < 2 ^ 61 - 1) :
    m.bodyW disk = m.body disk ∧
    (∀ (mds : List Ext) (lim md sec : Nat), mds[md]? = some m → loadPartW disk mds lim md sec = loadPart disk mds lim md sec) ∧
    (∀ T d junk, dumpMdW T disk d junk m = dumpMd T disk d junk m) := by
  refine ⟨?_, fun mds lim md sec hm => ?_, fun T d junk => ?_⟩
  · unfold Ext.bodyW Ext.body
    simp only [read_bytes]
    by_cases c : 0 + 8 ≤ (bytesOf disk m).length
    · rw [if_pos c, Res.ok_bind, Res.ok_bind, List.drop_zero]
      simp only [show unle ((bytesOf disk m).take 8) = sectionsSaid (bytesOf disk m) from rfl]
      generalize bytesOf disk m = b at *
      rw [if_neg (by omega), Nat.mod_eq_of_lt (show 8 * (sectionsSaid b + 1) < 2 ^ 64 by omega)]
    · rw [if_neg c]; rfl
  · unfold loadPartW loadPart
    rw [hm]
    simp only [read_bytes]
    by_cases c : 0 + 8 ≤ (bytesOf disk m).length
    · rw [if_pos c, Res.ok_bind, Res.ok_bind, List.drop_zero]
      simp only [show unle ((bytesOf disk m).take 8) = sectionsSaid (bytesOf disk m) from rfl]
      generalize bytesOf disk m = b at *
      rw [Nat.mod_eq_of_lt (show 8 * sectionsSaid b < 2 ^ 64 by omega), Nat.mod_eq_of_lt (show sectionsSaid b < 2 ^ 61 by omega),
        Nat.mod_eq_of_lt (show 8 * (sectionsSaid b + 1) < 2 ^ 64 by omega)]
      by_cases c1 : 8 + 8 * sectionsSaid b ≤ b.length
      · rw [if_pos c1, Res.ok_bind, Res.ok_bind]
        by_cases c2 : sectionsSaid b ≤ sec
        · rw [if_pos (.inr c2), if_pos c2]
        · rw [if_neg (by omega), if_neg c2]
          have hl := words_len (sectionsSaid b) ((b.drop 8).take (8 * sectionsSaid b))
          generalize words (sectionsSaid b) ((b.drop 8).take (8 * sectionsSaid b)) = offs at *
          have hs : (if sec = 0 then (if sectionsSaid b = 2 ^ 63 - 1 then Res.ub else .ok (8 * (sectionsSaid b + 1))) else wordAt offs (sec - 1)) =
              .ok (if sec = 0 then 8 * (sectionsSaid b + 1) else offs.getD (sec - 1) 0) := by
            by_cases z : sec = 0
            · rw [if_pos z, if_pos z, if_neg (by omega)]
            · rw [if_neg z, if_neg z, wordAt_in (by omega)]
          rw [hs, Res.ok_bind]
          generalize (if sec = 0 then 8 * (sectionsSaid b + 1) else offs.getD (sec - 1) 0) = start
          rw [scanW_all (by rw [List.length_drop, hl]; omega), Res.ok_bind]
          have hr := partEnd_range start lim (offs.drop (sec + 1)) (sec + 1)
          rw [List.length_drop, hl] at hr
          generalize partEnd start lim (sec + 1) (offs.drop (sec + 1)) = i at *
          rw [wordAt_in (by omega), Res.ok_bind]
      · rw [if_neg c1]; rfl
    · rw [if_neg c]; rfl
  · unfold dumpMdW dumpMd Ext.ends
    simp only [read_bytes]
    by_cases c : 0 + 8 ≤ (bytesOf disk m).length
    · rw [if_pos c, Res.ok_bind, Res.ok_bind, List.drop_zero]
      simp only [show unle ((bytesOf disk m).take 8) = sectionsSaid (bytesOf disk m) from rfl]
      generalize bytesOf disk m = b at *
      rw [Nat.mod_eq_of_lt (show 8 * sectionsSaid b < 2 ^ 64 by omega), Nat.mod_eq_of_lt (show sectionsSaid b < 2 ^ 61 by omega),
        if_neg (show ¬ sectionsSaid b = 2 ^ 63 - 1 by omega)]
      by_cases c1 : 8 + 8 * sectionsSaid b ≤ b.length
      · rw [if_pos c1, Res.ok_bind, Res.ok_bind, if_neg (by omega), if_neg (by rw [words_len]; omega), Res.pure_eq, Res.ok_bind]
      · rw [if_neg c1]; rfl
    · rw [if_neg c]; rfl

/-- **C103, violated.** Loads of the whole metadata lose the three highest bits of the number: numbers that differ in them only are the
same. -/
theorem C103_bits_violated {disk disk' : Mem} {m : Ext} (h8 : (bytesOf disk m).drop 8 = (bytesOf disk' m).drop 8)
    (hn : sectionsSaid (bytesOf disk m) % 2 ^ 61 = sectionsSaid (bytesOf disk' m) % 2 ^ 61)
    (h1 : sectionsSaid (bytesOf disk m) % 2 ^ 61 ≠ 2 ^ 61 - 1) : m.bodyW disk = m.bodyW disk' := by
  have l1 := bytesOf_length disk m
  have l2 := bytesOf_length disk' m
  unfold Ext.bodyW
  simp only [read_bytes, l1, l2]
  by_cases c : 0 + 8 ≤ m.size
  · rw [if_pos c, if_pos c, Res.ok_bind, Res.ok_bind, List.drop_zero, List.drop_zero]
    simp only [show ∀ b : List Byte, unle (b.take 8) = sectionsSaid b from fun _ => rfl]
    generalize bytesOf disk m = b at *
    generalize bytesOf disk' m = b' at *
    have e : 8 * (sectionsSaid b' + 1) % 2 ^ 64 = 8 * (sectionsSaid b + 1) % 2 ^ 64 := by omega
    rw [if_neg (show ¬ sectionsSaid b = 2 ^ 63 - 1 by omega), if_neg (show ¬ sectionsSaid b' = 2 ^ 63 - 1 by omega), e]
    have g : 8 ≤ 8 * (sectionsSaid b + 1) % 2 ^ 64 := by omega
    generalize 8 * (sectionsSaid b + 1) % 2 ^ 64 = s at *
    have d : b.drop s = b'.drop s := by
      rw [show s = 8 + (s - 8) by omega, ← List.drop_drop, ← List.drop_drop, h8]
    rw [d]
  · rw [if_neg c, if_neg c]; rfl

/-- **C103, violated.** The number -1 (and any other that differs from it in the three highest bits only, but for the largest positive
one) makes a load of the whole metadata take the table for entries. -/
theorem C103_minus_violated {disk : Mem} {m : Ext} (h8 : 8 ≤ m.size) (hn : sectionsSaid (bytesOf disk m) % 2 ^ 61 = 2 ^ 61 - 1)
    (h1 : sectionsSaid (bytesOf disk m) ≠ 2 ^ 63 - 1) : m.bodyW disk = .ok (bytesOf disk m) := by
  have l1 := bytesOf_length disk m
  unfold Ext.bodyW
  simp only [read_bytes]
  rw [if_pos (by omega), Res.ok_bind, List.drop_zero]
  simp only [show unle ((bytesOf disk m).take 8) = sectionsSaid (bytesOf disk m) from rfl]
  rw [if_neg h1, show 8 * (sectionsSaid (bytesOf disk m) + 1) % 2 ^ 64 = 0 by omega, if_neg (by omega), l1, if_pos (by omega), List.drop_zero,
    List.take_of_length_le (by omega)]

/-- **C103.** Loads in parts refuse negative numbers. -/
theorem C103_negative {disk : Mem} {mds : List Ext} {m : Ext} {md : Nat} (hm : mds[md]? = some m)
    (hn : 2 ^ 63 ≤ sectionsSaid (bytesOf disk m)) (lim sec : Nat) : loadPartW disk mds lim md sec = .err := by
  unfold loadPartW
  rw [hm]
  simp only [read_bytes]
  by_cases c : 0 + 8 ≤ (bytesOf disk m).length
  · rw [if_pos c, Res.ok_bind, List.drop_zero]
    simp only [show unle ((bytesOf disk m).take 8) = sectionsSaid (bytesOf disk m) from rfl]
    by_cases c1 : 8 + 8 * sectionsSaid (bytesOf disk m) % 2 ^ 64 ≤ (bytesOf disk m).length
    · rw [if_pos c1, Res.ok_bind, if_pos (.inl hn)]
    · rw [if_neg c1]; rfl
  · rw [if_neg c]; rfl

/-- **C103.** Loads in parts and h5ldump refuse numbers whose table, told by the 61 lowest bits, does not fit; but h5ldump adds 1 to the
largest positive number first. -/
theorem C103_refused {disk : Mem} {mds : List Ext} {m : Ext} {md : Nat} (hm : mds[md]? = some m)
    (hfit : m.size < 8 * (sectionsSaid (bytesOf disk m) % 2 ^ 61 + 1)) :
    (∀ lim sec, loadPartW disk mds lim md sec = .err) ∧
    (sectionsSaid (bytesOf disk m) ≠ 2 ^ 63 - 1 → ∀ T d junk, dumpMdW T disk d junk m = .err) := by
  have hl := bytesOf_length disk m
  refine ⟨fun lim sec => ?_, fun h1 T d junk => ?_⟩
  · unfold loadPartW
    rw [hm]
    simp only [read_bytes]
    by_cases c : 0 + 8 ≤ (bytesOf disk m).length
    · rw [if_pos c, Res.ok_bind, List.drop_zero]
      simp only [show unle ((bytesOf disk m).take 8) = sectionsSaid (bytesOf disk m) from rfl]
      rw [if_neg (by omega)]; rfl
    · rw [if_neg c]; rfl
  · unfold dumpMdW
    simp only [read_bytes]
    by_cases c : 0 + 8 ≤ (bytesOf disk m).length
    · rw [if_pos c, Res.ok_bind, List.drop_zero]
      simp only [show unle ((bytesOf disk m).take 8) = sectionsSaid (bytesOf disk m) from rfl]
      rw [if_neg h1, if_neg (by omega)]; rfl
    · rw [if_neg c]; rfl

theorem scanW_over {start lim n : Nat} : ∀ {os : List Nat} {i : Nat}, i + os.length < n → (∀ o ∈ os, start ≤ o ∧ o ≤ start + lim) →
    scanW start lim n i os = .ub
  | [], i, h, _ => by rw [scanW, if_pos (by rw [List.length_nil] at h; omega)]
  | o :: os, i, h, ho => by
    rw [List.length_cons] at h
    have := ho o (List.mem_cons_self ..)
    rw [scanW, if_pos (by omega), if_neg (by omega), scanW_over (by omega) fun o' h' => ho o' (List.mem_cons_of_mem _ h')]

/-- **C103, violated.** A number with one of the bits 61 and 62 set: a load in parts allocates and reads the table without them, and
then looks for ends behind it. -/
theorem C103_overrun_violated {disk : Mem} {mds : List Ext} {m : Ext} {md lim k : Nat} (hm : mds[md]? = some m)
    (hk : k = sectionsSaid (bytesOf disk m) % 2 ^ 61) (hb : 2 ^ 61 ≤ sectionsSaid (bytesOf disk m))
    (hn : sectionsSaid (bytesOf disk m) < 2 ^ 63) (hfit : 8 * (k + 1) ≤ m.size) (hsz : m.size < 2 ^ 63)
    (hlim : ∀ j, 1 ≤ j → j < k → 8 * (k + 1) ≤ endSaid (bytesOf disk m) j ∧ endSaid (bytesOf disk m) j ≤ 8 * (k + 1) + lim) :
    loadPartW disk mds lim md 0 = .ub := by
  have hl := bytesOf_length disk m
  unfold loadPartW
  rw [hm]
  simp only [read_bytes]
  rw [if_pos (by omega), Res.ok_bind, List.drop_zero]
  simp only [show unle ((bytesOf disk m).take 8) = sectionsSaid (bytesOf disk m) from rfl]
  generalize bytesOf disk m = b at *
  have e1 : 8 * sectionsSaid b % 2 ^ 64 = 8 * k := by omega
  have e2 : 8 * (sectionsSaid b + 1) % 2 ^ 64 = 8 * (k + 1) := by omega
  rw [e1, e2, ← hk, if_pos (by omega), Res.ok_bind, if_neg (by omega), if_pos trivial, if_neg (by omega), Res.ok_bind, words_table,
    scanW_over (by rw [List.length_drop, List.length_map, List.length_range]; omega)]
  · rfl
  · intro o ho
    rw [List.mem_iff_getElem] at ho
    obtain ⟨i, hi, rfl⟩ := ho
    rw [List.length_drop, List.length_map, List.length_range] at hi
    rw [List.getElem_drop, List.getElem_map, List.getElem_range]
    exact hlim _ (by omega) (by omega)

theorem scanW_some {start lim n k : Nat} : ∀ {os : List Nat} {i : Nat}, i + os.length = k → k < n →
    scanW start lim n i os = if partEnd start lim i os < k then .ok (partEnd start lim i os) else .ub
  | [], i, h, hk => by
    rw [List.length_nil] at h
    rw [scanW, partEnd, if_pos (by omega), if_neg (by omega)]
  | o :: os, i, h, hk => by
    rw [List.length_cons] at h
    rw [scanW, if_pos (by omega), partEnd]
    by_cases c : o < start ∨ lim < o - start
    · rw [if_pos c, if_pos c, if_pos (by omega)]
    · rw [if_neg c, if_neg c, scanW_some (by omega) hk]

/-- **C103, violated.** A number with one of the bits 61 and 62 set is not noticed as long as parts are loaded that are not the last of
the dataset (they are those of the number without the bits); with the last part memory behind the table is read. -/
theorem C103_last_violated {disk disk' : Mem} {mds : List Ext} {m : Ext} {md lim sec : Nat} {r : List Byte × Option (Nat × Nat)}
    (hm : mds[md]? = some m) (h8 : (bytesOf disk m).drop 8 = (bytesOf disk' m).drop 8)
    (hk : sectionsSaid (bytesOf disk m) % 2 ^ 61 = sectionsSaid (bytesOf disk' m)) (hb : 2 ^ 61 ≤ sectionsSaid (bytesOf disk m))
    (hn : sectionsSaid (bytesOf disk m) < 2 ^ 63) (hsz : m.size < 2 ^ 63)
    (hst : sec = 0 ∨ 8 ≤ endSaid (bytesOf disk m) (sec - 1)) (hr : loadPart disk' mds lim md sec = .ok r) :
    loadPartW disk mds lim md sec = if r.2.map (·.1) = some md then .ok r else .ub := by
  have l1 := bytesOf_length disk m
  have l2 := bytesOf_length disk' m
  have hmd : md < mds.length := (List.getElem?_eq_some_iff.mp hm).1
  have hd : ∀ i, 8 ≤ i → (bytesOf disk m).drop i = (bytesOf disk' m).drop i := by
    intro i hi
    rw [show i = 8 + (i - 8) by omega, ← List.drop_drop, ← List.drop_drop, h8]
  unfold loadPart at hr
  unfold loadPartW
  rw [hm] at hr ⊢
  simp only [read_bytes, l1, l2] at hr ⊢
  by_cases c : 0 + 8 ≤ m.size
  · rw [if_pos c, Res.ok_bind, List.drop_zero] at hr ⊢
    simp only [show ∀ b : List Byte, unle (b.take 8) = sectionsSaid b from fun _ => rfl] at hr ⊢
    have he : endSaid (bytesOf disk m) = endSaid (bytesOf disk' m) := by
      funext k; unfold endSaid; rw [hd _ (by omega)]
    rw [he] at hst
    rw [h8]
    generalize sectionsSaid (bytesOf disk m) = n at *
    generalize sectionsSaid (bytesOf disk' m) = k at *
    rw [show 8 * n % 2 ^ 64 = 8 * k by omega, hk]
    by_cases c1 : 8 + 8 * k ≤ m.size
    · rw [if_pos c1, Res.ok_bind] at hr ⊢
      rw [words_table] at hr ⊢
      by_cases c2 : k ≤ sec
      · rw [if_pos c2] at hr; cases hr
      · rw [if_neg c2] at hr
        rw [if_neg (by omega), show 8 * (n + 1) % 2 ^ 64 = 8 * (k + 1) by omega]
        have hs : (if sec = 0 then (if n = 2 ^ 63 - 1 then Res.ub else .ok (8 * (k + 1))) else
              wordAt ((List.range k).map (endSaid (bytesOf disk' m))) (sec - 1)) =
            .ok (if sec = 0 then 8 * (k + 1) else ((List.range k).map (endSaid (bytesOf disk' m))).getD (sec - 1) 0) := by
          by_cases z : sec = 0
          · rw [if_pos z, if_pos z, if_neg (by omega)]
          · rw [if_neg z, if_neg z, wordAt_in (by rw [List.length_map, List.length_range]; omega)]
        have hs8 : 8 ≤ (if sec = 0 then 8 * (k + 1) else ((List.range k).map (endSaid (bytesOf disk' m))).getD (sec - 1) 0) := by
          by_cases z : sec = 0
          · rw [if_pos z]; omega
          · rw [if_neg z, ends_getD (by omega)]; exact hst.resolve_left z
        rw [hs, Res.ok_bind]
        generalize (if sec = 0 then 8 * (k + 1) else ((List.range k).map (endSaid (bytesOf disk' m))).getD (sec - 1) 0) = start at *
        have hlen : ((List.range k).map (endSaid (bytesOf disk' m))).length = k := by rw [List.length_map, List.length_range]
        generalize (List.range k).map (endSaid (bytesOf disk' m)) = offs at *
        rw [scanW_some (k := k) (by rw [List.length_drop, hlen]; omega) (by omega)]
        have hpr := partEnd_range start lim (offs.drop (sec + 1)) (sec + 1)
        rw [List.length_drop, hlen] at hpr
        generalize partEnd start lim (sec + 1) (offs.drop (sec + 1)) = i at *
        by_cases ce : offs.getD (i - 1) 0 < start
        · rw [if_pos ce] at hr; cases hr
        · rw [if_neg ce] at hr
          by_cases cr : start + (offs.getD (i - 1) 0 - start) ≤ m.size
          · rw [if_pos cr, Res.ok_bind] at hr
            injection hr with hr
            subst hr
            by_cases ci : i < k
            · rw [if_pos ci, Res.ok_bind, wordAt_in (by omega), Res.ok_bind, if_neg ce, if_pos cr, Res.ok_bind, hd _ hs8]
              simp only [if_neg (show ¬ k ≤ i by omega), if_neg (show ¬ n ≤ i by omega), if_neg (show ¬ mds.length ≤ md by omega)]
              rw [if_pos (by rfl)]
              rfl
            · rw [if_neg ci]
              simp only [if_pos (show k ≤ i by omega)]
              rw [if_neg]
              · rfl
              · intro h
                by_cases cm : mds.length ≤ md + 1
                · rw [if_pos cm] at h; cases h
                · rw [if_neg cm] at h
                  injection h with h
                  exact absurd h (Nat.succ_ne_self md)
          · rw [if_neg cr] at hr; cases hr
    · rw [if_neg c1] at hr; cases hr
  · rw [if_neg c] at hr; cases hr

/-- **C103, violated.** h5ldump shows nothing, and succeeds, for negative numbers whose other bits tell a table that fits. -/
theorem C103_hidden_violated {disk : Mem} {m : Ext} (hn : 2 ^ 63 ≤ sectionsSaid (bytesOf disk m))
    (hfit : 8 * (sectionsSaid (bytesOf disk m) % 2 ^ 61 + 1) ≤ m.size) (T : DSets) (d : Bool) (junk : Ext → Nat → Nat) :
    dumpMdW T disk d junk m = .ok [] := by
  have hl := bytesOf_length disk m
  unfold dumpMdW
  simp only [read_bytes]
  rw [if_pos (by omega), Res.ok_bind, List.drop_zero]
  simp only [show unle ((bytesOf disk m).take 8) = sectionsSaid (bytesOf disk m) from rfl]
  rw [if_neg (by omega), if_pos (by omega), Res.ok_bind, if_pos hn]

/-- **C103, violated.** With one of the bits 61 and 62 set, and the sign bit not, h5ldump reads behind its table. -/
theorem C103_dump_violated {disk : Mem} {m : Ext} (hb : 2 ^ 61 ≤ sectionsSaid (bytesOf disk m))
    (hn : sectionsSaid (bytesOf disk m) < 2 ^ 63) (hfit : 8 * (sectionsSaid (bytesOf disk m) % 2 ^ 61 + 1) ≤ m.size) (T : DSets) (d : Bool)
    (junk : Ext → Nat → Nat) : dumpMdW T disk d junk m = .ub := by
  have hl := bytesOf_length disk m
  unfold dumpMdW
  simp only [read_bytes]
  rw [if_pos (by omega), Res.ok_bind, List.drop_zero]
  simp only [show unle ((bytesOf disk m).take 8) = sectionsSaid (bytesOf disk m) from rfl]
  by_cases c : sectionsSaid (bytesOf disk m) = 2 ^ 63 - 1
  · rw [if_pos c]
  · rw [if_neg c, if_pos (by omega), Res.ok_bind, if_neg (by omega), if_pos (by rw [words_len]; omega)]

/-- The metadata dataset of two writes with the number `n` of sections. -/
def scBytes (n : Nat) : List Byte := leN 8 n ++ putWords [68, 112] ++ dmP ++ dmP
def scExt : Ext := ⟨100, 112⟩
def scDisk (n : Nat) : Mem := writeAt (fun _ => 0) 100 (scBytes n)
def scWhole (n : Nat) : Res Nat := do return (← scExt.bodyW (scDisk n)).length
def scPart (n : Nat) : Res Nat := do return (← loadPartW (scDisk n) [scExt] 100 0 0).1.length
def scNext (lim sec n : Nat) : Res (Option (Nat × Nat)) := do return (← loadPartW (scDisk n) [scExt] lim 0 sec).2
def scShown (n : Nat) : Res Nat := do return (← dumpMdW [some dmD] (scDisk n) false (fun _ k => k) scExt).flatten.length

/-- **C103, violated.** One dataset, with the right number of sections, with bit 61 set, with the sign bit set, with the number -1 and
with the largest number: what loads of the whole metadata and in parts read, and how many entries h5ldump shows. -/
theorem C103_runs_violated :
    [2, 2 + 2 ^ 61, 2 + 2 ^ 63, 2 ^ 64 - 1, 2 ^ 63 - 1].map scWhole = [.ok 88, .ok 88, .ok 88, .ok 112, .ub] ∧
    [2, 2 + 2 ^ 61, 2 + 2 ^ 63, 2 ^ 64 - 1, 2 ^ 63 - 1].map scPart = [.ok 88, .ub, .err, .err, .err] ∧
    [2, 2 + 2 ^ 61, 2 + 2 ^ 63, 2 ^ 64 - 1, 2 ^ 63 - 1].map scShown = [.ok 2, .ub, .ok 0, .err, .ub] := by
  decide +kernel

/-- Hypotheses of `C103_last_violated` (more below): the parts of two sections, of the right number and with bit 61 set. -/
example : (loadPart (scDisk 2) [scExt] 50 0 0 >>= fun r => .ok r.2) = .ok (some (0, 1)) ∧
    (loadPart (scDisk 2) [scExt] 50 0 1 >>= fun r => .ok r.2) = .ok none ∧
    scNext 50 0 (2 + 2 ^ 61) = .ok (some (0, 1)) ∧ scNext 50 1 (2 + 2 ^ 61) = .ub ∧
    8 ≤ endSaid (bytesOf (scDisk (2 + 2 ^ 61)) scExt) 0 := by
  refine ⟨?_, ?_, ?_, ?_, ?_⟩ <;> decide +kernel

/-- Hypotheses of the theorems of C103. -/
example : sectionsSaid (bytesOf (scDisk 2) scExt) = 2 ∧ sectionsSaid (bytesOf (scDisk (2 + 2 ^ 61)) scExt) = 2 + 2 ^ 61 ∧
    sectionsSaid (bytesOf (scDisk (2 + 2 ^ 63)) scExt) = 2 + 2 ^ 63 ∧ sectionsSaid (bytesOf (scDisk (2 ^ 64 - 1)) scExt) = 2 ^ 64 - 1 ∧
    (bytesOf (scDisk 2) scExt).drop 8 = (bytesOf (scDisk (2 + 2 ^ 61)) scExt).drop 8 ∧ [scExt][0]? = some scExt ∧
    scExt.size < 8 * ((2 ^ 64 - 1) % 2 ^ 61 + 1) ∧ 8 * (2 + 1) ≤ scExt.size ∧ endSaid (bytesOf (scDisk (2 + 2 ^ 61)) scExt) 1 = 112 ∧ 112 ≤ 8 * (2 + 1) + 100 := by
  refine ⟨?_, ?_, ?_, ?_, ?_, ?_, ?_, ?_, ?_, ?_⟩ <;> decide +kernel

end Verif.Props
