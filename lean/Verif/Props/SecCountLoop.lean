import Verif.Props.SecCount
import Verif.Model.SecCountLoop

/-
C103: reads that load the metadata in parts.
-/

namespace Verif.Props

open _root_.Verif.Spec (bytesOf sectionsSaid)

theorem bind_ok {α β : Type} {x : Res α} {f : α → Res β} {y : β} (h : (x >>= f) = .ok y) : ∃ a, x = .ok a ∧ f a = .ok y := by
  cases x with
  | ok a => exact ⟨a, rfl, h⟩
  | err => cases h
  | ub => cases h

/-- Where a load in parts goes on: in the same dataset, or with the next one; not beyond a dataset with a number that cannot be. -/
theorem loadPartW_next {disk : Mem} {mds : List Ext} {lim md sec : Nat} {r : List Byte × Option (Nat × Nat)}
    (h : loadPartW disk mds lim md sec = .ok r) : ∃ m, mds[md]? = some m ∧
      ((∃ s, r.2 = some (md, s)) ∨ sectionsSaid (bytesOf disk m) < 2 ^ 61 ∧ (r.2 = some (md + 1, 0) ∨ r.2 = none ∧ mds.length ≤ md + 1)) := by
  unfold loadPartW at h
  cases hm : mds[md]? with
  | none => rw [hm] at h; cases h
  | some m =>
    rw [hm] at h
    have hmd : md < mds.length := (List.getElem?_eq_some_iff.mp hm).1
    refine ⟨m, rfl, ?_⟩
    simp only [read_bytes] at h
    by_cases c : 0 + 8 ≤ (bytesOf disk m).length
    · rw [if_pos c, Res.ok_bind, List.drop_zero] at h
      simp only [show ∀ b : List Byte, unle (b.take 8) = sectionsSaid b from fun _ => rfl] at h
      obtain ⟨ob, _, h⟩ := bind_ok h
      by_cases c1 : 2 ^ 63 ≤ sectionsSaid (bytesOf disk m) ∨ sectionsSaid (bytesOf disk m) ≤ sec
      · rw [if_pos c1] at h; cases h
      · rw [if_neg c1] at h
        obtain ⟨start, _, h⟩ := bind_ok h
        obtain ⟨i, hi, h⟩ := bind_ok h
        obtain ⟨e, hw, h⟩ := bind_ok h
        by_cases c2 : e < start
        · rw [if_pos c2] at h; cases h
        · rw [if_neg c2] at h
          obtain ⟨b, _, h⟩ := bind_ok h
          injection h with h
          subst h
          by_cases cn : sectionsSaid (bytesOf disk m) ≤ i
          · refine .inr ⟨?_, ?_⟩
            · by_cases c3 : sectionsSaid (bytesOf disk m) < 2 ^ 61
              · exact c3
              · -- the word before `i` was read
                have hin : i - 1 < sectionsSaid (bytesOf disk m) % 2 ^ 61 := by
                  unfold wordAt at hw
                  by_cases c4 : i - 1 < (words (sectionsSaid (bytesOf disk m) % 2 ^ 61) ob).length
                  · rw [words_len] at c4; exact c4
                  · rw [List.getElem?_eq_none (by omega)] at hw; cases hw
                omega
            · simp only [if_pos cn]
              by_cases cm : mds.length ≤ md + 1
              · exact .inr ⟨if_pos cm, cm⟩
              · exact .inl (if_neg cm)
          · refine .inl ⟨i, ?_⟩
            simp only [if_neg cn]
            exact if_neg (by omega)
    · rw [if_neg c] at h; cases h

/-- **C103.** If the number of sections of any metadata dataset is negative or has one of the bits 61 and 62 set, no read that loads the
metadata in parts succeeds. -/
theorem C103_reads {st : FState} {m : Ext} {md : Nat} (hm : st.mds[md]? = some m) (hn : 2 ^ 61 ≤ sectionsSaid (bytesOf st.disk m))
    (lim : Nat) (qs : List RReq) : ∀ (fuel : Nat) (pos : Nat × Nat) (hs : List Hit), pos.1 ≤ md → loadLoopW st lim qs fuel pos ≠ .ok hs
  | 0, pos, hs, _ => by rw [loadLoopW]; exact fun h => nomatch h
  | fuel + 1, pos, hs, hp => by
    have hmd : md < st.mds.length := (List.getElem?_eq_some_iff.mp hm).1
    intro h
    rw [loadLoopW] at h
    obtain ⟨p, h1, h⟩ := bind_ok h
    obtain ⟨ix, _, h⟩ := bind_ok h
    obtain ⟨hs1, _, h⟩ := bind_ok h
    obtain ⟨m', hm', hc⟩ := loadPartW_next h1
    rcases hc with ⟨s, hc⟩ | ⟨hlt, hc⟩
    · rw [hc] at h
      obtain ⟨hs2, h2, _⟩ := bind_ok h
      exact C103_reads hm hn lim qs fuel (pos.1, s) hs2 hp h2
    · have hne : pos.1 ≠ md := by
        intro e
        rw [e, hm] at hm'
        injection hm' with hm'
        rw [← hm'] at hlt
        omega
      rcases hc with hc | ⟨_, hc⟩
      · rw [hc] at h
        obtain ⟨hs2, h2, _⟩ := bind_ok h
        exact C103_reads hm hn lim qs fuel (pos.1 + 1, 0) hs2 (by show pos.1 + 1 ≤ md; omega) h2
      · omega

/-- **C103.** If all numbers of sections are below 2^61 - 1, reads that load the metadata in parts are those of C99. -/
theorem C103_reads_usual {st : FState} (h : ∀ m ∈ st.mds, sectionsSaid (bytesOf st.disk m) < 2 ^ 61 - 1) (lim : Nat) (qs : List RReq) :
    ∀ (fuel : Nat) (pos : Nat × Nat), loadLoopW st lim qs fuel pos = loadLoop st lim qs fuel pos
  | 0, _ => rfl
  | fuel + 1, pos => by
    have hp : loadPartW st.disk st.mds lim pos.1 pos.2 = loadPart st.disk st.mds lim pos.1 pos.2 := by
      cases hm : st.mds[pos.1]? with
      | none => unfold loadPartW loadPart; rw [hm]
      | some m => exact (C103_usual (h m (List.mem_of_getElem? hm))).2.1 _ _ _ _ hm
    rw [loadLoopW, loadLoop, hp]
    simp only [C103_reads_usual h lim qs fuel]
    rfl

/-- Hypotheses of `C103_reads`; those of `C103_reads_usual` beside `C103_runs_violated`. -/
example : ({ tbState true none [68, 112] with disk := scDisk (2 + 2 ^ 61), mds := [scExt] } : FState).mds[0]? = some scExt ∧
    2 ^ 61 ≤ sectionsSaid (bytesOf (scDisk (2 + 2 ^ 61)) scExt) := by
  refine ⟨rfl, ?_⟩
  decide +kernel

end Verif.Props
