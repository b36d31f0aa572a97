import Verif.Model.Tools

/-
C35 (h5lreplay), C36 (h5ldump), C37 (lookup of log datasets).
-/

namespace Verif.Props

/-! ### C35 -/

/-- Bounds of section `k` of a metadata dataset. -/
def sectionStart (ends : List Nat) (k : Nat) : Nat := if k = 0 then 8 * (ends.length + 1) else ends.getD (k - 1) 0
def sectionEnd (ends : List Nat) (k : Nat) : Nat := ends.getD k 0

theorem mapWord_eq (ends : List Nat) {i : Nat} (h : 0 < i) (hi : i ≤ ends.length) :
    mapWord ends i = .ok (ends.getD (i - 1) 0) := by
  unfold mapWord
  rw [if_neg (by omega)]
  have : i - 1 < ends.length := by omega
  rw [List.getElem?_eq_getElem this]
  simp [List.getD, List.getElem?_eq_getElem this]

/-- First section of process `r`. -/
def firstSec (nsec np r : Nat) : Nat := r * nsec / np

theorem firstSec_lt {nsec np r : Nat} (hnp : 0 < np) (h : np ≤ nsec) :
    firstSec nsec np r < firstSec nsec np (r + 1) := by
  unfold firstSec
  have : (r * nsec + np) / np ≤ (r + 1) * nsec / np := Nat.div_le_div_right (by rw [Nat.add_mul]; omega)
  rw [Nat.add_div_right _ hnp] at this
  omega

theorem firstSec_mono {nsec np : Nat} {r r' : Nat} (h : r ≤ r') : firstSec nsec np r ≤ firstSec nsec np r' :=
  Nat.div_le_div_right (Nat.mul_le_mul_right _ h)

theorem firstSec_end {nsec np : Nat} (hnp : 0 < np) : firstSec nsec np np = nsec := by
  unfold firstSec
  exact Nat.mul_div_cancel_left nsec hnp

/-- Some process starts at or below and ends above. -/
theorem firstSec_cover {nsec np k : Nat} (hnp : 0 < np) (hk : k < nsec) :
    ∃ r < np, firstSec nsec np r ≤ k ∧ k < firstSec nsec np (r + 1) := by
  have key : ∀ n ≤ np, k < firstSec nsec np n → ∃ r < n, firstSec nsec np r ≤ k ∧ k < firstSec nsec np (r + 1) := by
    intro n
    induction n with
    | zero => intro _ h; simp [firstSec] at h
    | succ n ih =>
      intro hn h
      by_cases hl : k < firstSec nsec np n
      · obtain ⟨r, hr, h1, h2⟩ := ih (by omega) hl
        exact ⟨r, by omega, h1, h2⟩
      · exact ⟨n, by omega, by omega, h⟩
  exact key np (Nat.le_refl _) (by rw [firstSec_end hnp]; exact hk)

theorem low32_small {n : Nat} (h : n < 2 ^ 31) : low32 n = n := by
  unfold low32 signed
  rw [Nat.mod_eq_of_lt (by omega), if_pos (by omega)]

theorem getD_lt {ends : List Nat} {n : Nat} (hn : 0 < n) (h : ∀ e ∈ ends, e < n) (k : Nat) : ends.getD k 0 < n := by
  by_cases hk : k < ends.length
  · simp only [List.getD, List.getElem?_eq_getElem hk, Option.getD]
    exact h _ (List.getElem_mem hk)
  · simp only [List.getD, List.getElem?_eq_none (Nat.le_of_not_lt hk), Option.getD]
    exact hn

/-- C35: with at least as many sections as processes and less than 2 GiB of metadata, every process replays all entries of a
run of whole sections, and every section is replayed by exactly one process; for every section map. -/
theorem C35_sections_partial (ends : List Nat) {np : Nat} (hnp : 0 < np) (h : np ≤ ends.length)
    (hsm : ∀ e ∈ ends, e < 2 ^ 31) (hsm' : 8 * (ends.length + 1) < 2 ^ 31) :
    (∀ r < np, ∃ p, replayPart ends np r = .ok p ∧ p.start = sectionStart ends (firstSec ends.length np r) ∧
      p.stop = sectionEnd ends (firstSec ends.length np (r + 1) - 1) ∧ p.stride = 1 ∧
      firstSec ends.length np r < firstSec ends.length np (r + 1)) ∧
    (∀ k < ends.length, ∃ r < np, (firstSec ends.length np r ≤ k ∧ k < firstSec ends.length np (r + 1)) ∧
      ∀ r' < np, firstSec ends.length np r' ≤ k → k < firstSec ends.length np (r' + 1) → r' = r) := by
  have hg := getD_lt (by decide) hsm
  constructor
  · intro r hr
    have hlt := firstSec_lt (r := r) hnp h
    have hle : firstSec ends.length np (r + 1) ≤ ends.length := by
      have := firstSec_mono (nsec := ends.length) (np := np) (show r + 1 ≤ np from hr)
      rwa [firstSec_end hnp] at this
    have e2 : mapWord ends ((r + 1) * ends.length / np) = .ok (ends.getD (firstSec ends.length np (r + 1) - 1) 0) :=
      mapWord_eq ends (show 0 < firstSec ends.length np (r + 1) by omega) hle
    have hd : r * ends.length / np * 8 / 8 = firstSec ends.length np r := Nat.mul_div_cancel _ (by decide)
    by_cases h0 : firstSec ends.length np r = 0
    · have e1 : mapWord ends (r * ends.length / np * 8 / 8) = .ok ends.length := by rw [hd, h0]; rfl
      have h00 : r * ends.length / np * 8 = 0 := by
        have : r * ends.length / np = 0 := h0
        rw [this]
      refine ⟨⟨low32 (8 * (ends.length + 1)), low32 (ends.getD (firstSec ends.length np (r + 1) - 1) 0), 1,
        high32 (ends.getD (firstSec ends.length np (r + 1) - 1) 0)⟩, ?_, ?_, ?_, rfl, hlt⟩
      · unfold replayPart
        simp only [e1, Res.bind, e2, if_pos h, if_pos h00]
      · rw [h0]; exact low32_small hsm'
      · exact low32_small (hg _)
    · have e1 : mapWord ends (r * ends.length / np * 8 / 8) = .ok (ends.getD (firstSec ends.length np r - 1) 0) := by
        rw [hd]
        exact mapWord_eq ends (by omega) (by omega)
      have h00 : ¬ r * ends.length / np * 8 = 0 := by
        have : ¬ r * ends.length / np = 0 := h0
        omega
      refine ⟨⟨low32 (ends.getD (firstSec ends.length np r - 1) 0),
        low32 (ends.getD (firstSec ends.length np (r + 1) - 1) 0), 1,
        high32 (ends.getD (firstSec ends.length np (r + 1) - 1) 0)⟩, ?_, ?_, ?_, rfl, hlt⟩
      · unfold replayPart
        simp only [e1, Res.bind, e2, if_pos h, if_neg h00]
      · unfold sectionStart
        rw [if_neg h0]
        exact low32_small (hg _)
      · exact low32_small (hg _)
  · intro k hk
    obtain ⟨r, hr, h1, h2⟩ := firstSec_cover hnp hk
    refine ⟨r, hr, ⟨h1, h2⟩, ?_⟩
    intro r' hr' h1' h2'
    rcases Nat.lt_trichotomy r r' with hl | he | hl
    · have := firstSec_mono (nsec := ends.length) (np := np) (show r + 1 ≤ r' from hl); omega
    · exact he.symm
    · have := firstSec_mono (nsec := ends.length) (np := np) (show r' + 1 ≤ r from hl); omega

/-- The share of a single process. -/
theorem part_single {ends : List Nat} {e : Nat} (h1 : 1 ≤ ends.length) (h2 : mapWord ends ends.length = .ok e) :
    replayPart ends 1 0 = .ok ⟨low32 (8 * (ends.length + 1)), low32 e, 1, high32 e⟩ := by
  unfold replayPart
  have e0 : 0 * ends.length / 1 * 8 = 0 := by omega
  have e1 : mapWord ends (0 * ends.length / 1 * 8 / 8) = .ok ends.length := by rw [e0]; rfl
  have e2 : mapWord ends ((0 + 1) * ends.length / 1) = .ok e := by
    rw [show (0 + 1) * ends.length / 1 = ends.length by omega]
    exact h2
  simp only [e1, e2, Res.bind, if_pos h1, if_pos e0]

/-- C35 is violated from 2 GiB of metadata on: the offset is read to an `int`.  A single process, one section. -/
theorem C35_large_violated {e : Nat} (h : 2 ^ 31 ≤ e) : ∃ p, replayPart [e] 1 0 = .ok p ∧ p.stop ≠ e := by
  refine ⟨_, part_single (Nat.le_refl 1) rfl, ?_⟩
  intro he
  have he : low32 e = (e : Int) := he
  unfold low32 signed at he
  split at he <;> omega

/-- C35: with stride 1 all entries are replayed, in order. -/
theorem C35_entries_partial {α : Type} (off : Int) (l : List α) (j : Nat) :
    replayShare 1 off l j = l ∧ replayPlain 1 off l.length l j = some l := by
  induction l generalizing j with
  | nil => exact ⟨rfl, rfl⟩
  | cons x xs ih =>
    have ht : ((j : Int) - off).tmod 1 = 0 := Int.tmod_one _
    constructor
    · unfold replayShare
      rw [if_pos ht, (ih (j + 1)).1]
      rfl
    · show (if ((j : Int) - off).tmod 1 = 0 then (replayPlain 1 off xs.length xs (j + 1)).map (x :: ·) else _) = _
      rw [if_pos ht, (ih (j + 1)).2]
      rfl

/-- The next entry number to be taken is less than a stride away. -/
theorem next_hit {s : Nat} (hs : 0 < s) (off : Int) (j : Nat) :
    ∃ d, d < s ∧ (((j + d : Nat) : Int) - off).tmod s = 0 ∧ ∀ e < d, (((j + e : Nat) : Int) - off).tmod s ≠ 0 := by
  have hdiv : ∀ x : Int, x.tmod s = 0 ↔ x % s = 0 := by
    intro x
    rw [← Int.dvd_iff_tmod_eq_zero, ← Int.dvd_iff_emod_eq_zero]
  refine ⟨((off - j) % s).toNat, ?_, ?_, ?_⟩
  · have h1 := Int.emod_lt_of_pos (off - j) (show (0 : Int) < s by omega)
    have h2 := Int.emod_nonneg (off - j) (show (s : Int) ≠ 0 by omega)
    omega
  · rw [hdiv]
    have h2 := Int.emod_nonneg (off - j) (show (s : Int) ≠ 0 by omega)
    have : (((j + ((off - j) % s).toNat : Nat) : Int) - off) = - (s * ((off - j) / s)) := by
      have := Int.mul_ediv_add_emod (off - j) s
      omega
    rw [this, Int.neg_emod_eq_sub_emod]
    simp
  · intro e he hc
    rw [hdiv] at hc
    have h1 := Int.emod_lt_of_pos (off - j) (show (0 : Int) < s by omega)
    have h2 := Int.emod_nonneg (off - j) (show (s : Int) ≠ 0 by omega)
    have hdvd : (s : Int) ∣ ((j + e : Nat) : Int) - off := Int.dvd_of_emod_eq_zero hc
    have hd2 : (s : Int) ∣ (off - j) - (off - j) % s := Int.dvd_self_sub_emod
    have hd3 := Int.dvd_add hdvd hd2
    have : ((j + e : Nat) : Int) - off + ((off - j) - (off - j) % s) = (e : Int) - (off - j) % s := by omega
    rw [this] at hd3
    have hneg : (s : Int) ∣ (off - j) % s - e := by
      have := Int.dvd_neg.mpr hd3
      rwa [Int.neg_sub] at this
    have := Int.le_of_dvd (by omega) hneg
    omega

theorem replayPlain_skip {α : Type} (s off : Int) (x : α) (xs : List α) : ∀ (d fuel j : Nat),
    (∀ e < d, (((j + e : Nat) : Int) - off).tmod s ≠ 0) →
    replayPlain s off (fuel + d) (x :: xs) j = replayPlain s off fuel (x :: xs) (j + d)
  | 0, _, _, _ => rfl
  | d + 1, fuel, j, h => by
    have h0 := h 0 (by omega)
    rw [show fuel + (d + 1) = (fuel + d) + 1 by omega]
    show (if ((j : Int) - off).tmod s = 0 then _ else replayPlain s off (fuel + d) (x :: xs) (j + 1)) = _
    rw [if_neg (by simpa using h0), replayPlain_skip s off x xs d fuel (j + 1)]
    · congr 1; omega
    · intro e he
      have := h (e + 1) (by omega)
      rwa [show j + 1 + e = j + (e + 1) by omega]

/-- C35: the loops terminate for every stride and offset.  Without shared metadata every process takes every entry of its
sections, whatever the stride. -/
theorem C35_terminates {α : Type} {s : Nat} (hs : 0 < s) (off : Int) (l : List α) (j : Nat) :
    ∃ fuel, replayPlain s off fuel l j = some l := by
  induction l generalizing j with
  | nil => exact ⟨0, rfl⟩
  | cons x xs ih =>
    obtain ⟨d, _, h1, h2⟩ := next_hit hs off j
    obtain ⟨fuel, hf⟩ := ih (j + d + 1)
    refine ⟨fuel + 1 + d, ?_⟩
    rw [replayPlain_skip _ _ _ _ _ _ _ h2]
    show (if (((j + d : Nat) : Int) - off).tmod s = 0 then (replayPlain s off fuel xs (j + d + 1)).map (x :: ·) else _) = _
    rw [if_pos h1, hf]
    rfl

/-- C35 is violated when there are fewer sections than processes: both processes replay all entries of the only section, with
or without shared metadata. -/
theorem C35_entries_violated : ∃ p0 p1, replayPart [100] 2 0 = .ok p0 ∧ replayPart [100] 2 1 = .ok p1 ∧
    p0.start = p1.start ∧ p0.stop = p1.stop ∧
    (∀ l : List Nat, replayShare p0.stride p0.off l 0 = l ∧ replayShare p1.stride p1.off l 0 = l) :=
  ⟨⟨16, 100, 1, 0⟩, ⟨16, 100, 1, 0⟩, by decide, by decide, rfl, rfl,
    fun l => ⟨(C35_entries_partial 0 l 0).1, (C35_entries_partial 0 l 0).1⟩⟩

/-- C35 is violated: with four processes and one section all processes replay the entries number 0, 3, 6, ... of a file with
shared metadata; all other entries are lost. -/
theorem C35_lost_violated : ∀ r < 4, ∃ p, replayPart [100] 4 r = .ok p ∧ p.stride = 3 ∧
    ∀ (l : List Nat) (x : Nat), x ∈ replayShare p.stride p.off l 0 ↔ ∃ j, l[3 * j]? = some x := by
  have key : ∀ (l : List Nat) (j x : Nat), x ∈ replayShare 3 0 l j ↔ ∃ i, l[i]? = some x ∧ (j + i) % 3 = 0 := by
    intro l
    induction l with
    | nil => intro j x; simp [replayShare]
    | cons a l ih =>
      intro j x
      have hm : (((j : Int) - 0).tmod 3 = 0) ↔ j % 3 = 0 := by
        rw [← Int.dvd_iff_tmod_eq_zero]; omega
      unfold replayShare
      rw [List.mem_append, ih]
      constructor
      · rintro (h | ⟨i, h1, h2⟩)
        · by_cases hj : ((j : Int) - 0).tmod 3 = 0
          · rw [if_pos hj, List.mem_singleton] at h
            exact ⟨0, by simp [h], by have := hm.mp hj; omega⟩
          · rw [if_neg hj] at h; cases h
        · exact ⟨i + 1, by simpa using h1, by omega⟩
      · rintro ⟨i, h1, h2⟩
        cases i with
        | zero =>
          left
          rw [if_pos (hm.mpr (by omega)), List.mem_singleton]
          simpa using h1.symm
        | succ i => exact Or.inr ⟨i, by simpa using h1, by omega⟩
  intro r hr
  have hp : replayPart [100] 4 r = .ok ⟨16, 100, 3, 0⟩ := by
    have : r = 0 ∨ r = 1 ∨ r = 2 ∨ r = 3 := by omega
    rcases this with h | h | h | h <;> subst h <;> decide
  refine ⟨_, hp, rfl, ?_⟩
  intro l x
  rw [key]
  constructor
  · rintro ⟨i, h1, h2⟩
    exact ⟨i / 3, by rw [show 3 * (i / 3) = i by omega]; exact h1⟩
  · rintro ⟨j, h⟩
    exact ⟨3 * j, h, by omega⟩

example : replayPart [100, 180, 200, 260, 300] 2 1 = .ok ⟨180, 300, 1, 0⟩ ∧
    replayPart [100, 180, 200, 260, 300] 2 0 = .ok ⟨48, 180, 1, 0⟩ := by decide

/-! ### C36 -/

/-- Bounds recorded in the file. -/
def recorded (ends : List Nat) : List (Nat × Nat) :=
  (List.range ends.length).map (fun k => (sectionStart ends k, sectionEnd ends k))

theorem dumpOffs_eq {junk ends : List Nat} (h : junk.length = ends.length + 1) :
    dumpOffs junk ends = (8 + 8 * ends.length) :: ends := by
  obtain ⟨j, js, rfl⟩ := List.exists_cons_of_length_pos (l := junk) (by omega)
  have hl : js.length = ends.length := by simpa using h
  unfold dumpOffs readSame
  rw [show 1 + ends.length = ends.length + 1 from Nat.add_comm ..]
  simp [← hl]

/-- **C36.** Whatever the memory contained, the sections printed have the bounds recorded in the file. -/
theorem C36_bounds {junk : List Nat} (ends : List Nat) (h : junk.length = ends.length + 1) :
    dumpBounds junk ends = recorded ends := by
  unfold dumpBounds recorded
  rw [dumpOffs_eq h]
  apply List.ext_getElem (by simp)
  intro i h1 h2
  have hi : i < ends.length := by simpa using h2
  simp only [List.drop_succ_cons, List.drop_zero, List.getElem_zip, List.getElem_map, List.getElem_range, sectionStart,
    sectionEnd]
  rcases i with _ | i
  · simp [List.getD, hi]; omega
  · simp [List.getD, hi, show i < ends.length by omega]

example : dumpBounds [7, 8, 9, 10] [100, 180, 200] = [(32, 100), (100, 180), (180, 200)] := by decide

/-! ### C37 -/

/-- C37: the lookup returns the log dataset that contains the offset, if the log datasets follow each other in the file. -/
theorem C37_lookup (ld : List (Nat × Nat)) (hord : ld.Pairwise (fun a b => a.1 + a.2 ≤ b.1)) {i foff : Nat} {d : Nat × Nat}
    (hi : ld[i]? = some d) (h1 : d.1 ≤ foff) (h2 : foff < d.1 + d.2) : foff2logidx foff (ld.map Prod.fst) = some i := by
  obtain ⟨hil, hid⟩ := List.getElem?_eq_some_iff.mp hi
  have get : ∀ k (hk : k < ld.length), (ld.map Prod.fst).getD k 0 = ld[k].1 := by
    intro k hk
    simp [List.getD, hk]
  unfold foff2logidx
  rw [List.length_map]
  -- split the range at i
  have hsplit : List.range ld.length = List.range (i + 1) ++ (List.range (ld.length - (i + 1))).map (· + (i + 1)) := by
    have := List.range_add (n := i + 1) (m := ld.length - (i + 1))
    rw [show i + 1 + (ld.length - (i + 1)) = ld.length by omega] at this
    rw [this]
    congr 1
    apply List.map_congr_left
    intro a _
    omega
  rw [hsplit, List.reverse_append, List.find?_append]
  have hnone : ((List.range (ld.length - (i + 1))).map (· + (i + 1))).reverse.find?
      (fun k => decide ((ld.map Prod.fst).getD k 0 ≤ foff)) = none := by
    rw [List.find?_eq_none]
    intro k hk
    rw [List.mem_reverse, List.mem_map] at hk
    obtain ⟨a, ha, rfl⟩ := hk
    rw [List.mem_range] at ha
    have hlt : a + (i + 1) < ld.length := by omega
    rw [get _ hlt]
    have := List.pairwise_iff_getElem.mp hord i (a + (i + 1)) hil hlt (by omega)
    rw [hid] at this
    simp
    omega
  rw [hnone, Option.none_or, List.range_succ, List.reverse_append]
  simp only [List.reverse_cons, List.reverse_nil, List.nil_append, List.cons_append]
  rw [List.find?_cons_of_pos]
  rw [get i hil, hid]
  simp [h1]

/-- The order matters: with a later log dataset at a lower address the lookup returns the wrong one. -/
theorem C37_order_needed : ∃ (ld : List (Nat × Nat)) (i foff : Nat) (d : Nat × Nat), ld[i]? = some d ∧ d.1 ≤ foff ∧
    foff < d.1 + d.2 ∧ foff2logidx foff (ld.map Prod.fst) ≠ some i :=
  ⟨[(5000, 100), (2000, 100)], 0, 5050, (5000, 100), by decide, by decide, by decide, by decide⟩

example : foff2logidx 2150 [1000, 2000, 3000] = some 1 := by decide

end Verif.Props
