import Verif.Model.Dataspace
import Mathlib.Data.Finset.Card
import Mathlib.Data.Finset.Range

namespace Verif

section
variable {α : Type} {len : Nat} {T : Nat → α}

/-- What holds between two rounds of the outer loop of `sortblocks`. -/
structure ReInv (len : Nat) (T : Nat → α) (a : Nat → α) (idx : Nat → Nat) : Prop where
  lt : ∀ m, m < len → idx m < len
  inj : ∀ m n, m < len → n < len → idx m = idx n → m = n
  val : ∀ m, m < len → a (idx m) = T m

/-- What holds in the inner loop; `A` is the set of slots that are not final yet. -/
structure CyInv (len : Nat) (T : Nat → α) (i : Nat) (t : α) (A : Finset Nat) (a : Nat → α)
    (idx : Nat → Nat) (j : Nat) : Prop where
  sub : ∀ m ∈ A, m < len
  jA : j ∈ A
  inj : ∀ m ∈ A, ∀ n ∈ A, idx m = idx n → m = n
  hole : ∀ m ∈ A, idx m = j → j = i
  into : ∀ m ∈ A, idx m ∈ A ∨ idx m = i
  tmp : ∀ m ∈ A, idx m = i → t = T m
  val : ∀ m ∈ A, idx m ≠ i → a (idx m) = T m
  fin : ∀ m, m < len → m ∉ A → a m = T m ∧ idx m = m

theorem cycle_ok {i : Nat} {t : α} : ∀ (f : Nat) (A : Finset Nat) (a : Nat → α) (idx : Nat → Nat) (j : Nat),
    A.card ≤ f → CyInv len T i t A a idx j →
    ∃ a' idx', cycle i t f a idx j = .ok (a', idx') ∧ ReInv len T a' idx' ∧ idx' j = j ∧
      ∀ m, idx m = m → idx' m = m := by
  intro f
  induction f with
  | zero =>
    intro A a idx j hc h
    have : A = ∅ := Finset.card_eq_zero.mp (by omega)
    have hj := h.jA
    simp [this] at hj
  | succ f ih =>
    intro A a idx j hc h
    unfold cycle
    by_cases hk : idx j = i
    · rw [if_pos hk]
      have hne : ∀ m ∈ A, m ≠ j → idx m ≠ j := by
        intro m hm hmj he
        have hji := h.hole m hm he
        exact hmj (h.inj m hm j h.jA (by rw [he, hk, hji]))
      have hni : ∀ m ∈ A, m ≠ j → idx m ≠ i := by
        intro m hm hmj he
        exact hmj (h.inj m hm j h.jA (by rw [he, hk]))
      have hmem : ∀ m ∈ A, m ≠ j → idx m ∈ A := by
        intro m hm hmj
        rcases h.into m hm with h1 | h1
        · exact h1
        · exact absurd h1 (hni m hm hmj)
      refine ⟨_, _, rfl, ⟨?_, ?_, ?_⟩, by simp [setAt], ?_⟩
      · intro m hm
        by_cases hmj : m = j
        · simp [setAt, hmj, h.sub j h.jA]
        · by_cases hA : m ∈ A
          · simp only [setAt, hmj, if_false]; exact h.sub _ (hmem m hA hmj)
          · simp only [setAt, hmj, if_false, (h.fin m hm hA).2, hm]
      · intro m n hm hn he
        by_cases hmj : m = j <;> by_cases hnj : n = j
        · rw [hmj, hnj]
        · subst hmj
          simp only [setAt, if_true, hnj, if_false] at he
          by_cases hA : n ∈ A
          · exact absurd he.symm (hne n hA hnj)
          · rw [(h.fin n hn hA).2] at he; exact he
        · subst hnj
          simp only [setAt, if_true, hmj, if_false] at he
          by_cases hA : m ∈ A
          · exact absurd he (hne m hA hmj)
          · rw [(h.fin m hm hA).2] at he; exact he
        · simp only [setAt, hmj, hnj, if_false] at he
          by_cases hA : m ∈ A <;> by_cases hB : n ∈ A
          · exact h.inj m hA n hB he
          · rw [(h.fin n hn hB).2] at he
            exact absurd (he ▸ hmem m hA hmj) hB
          · rw [(h.fin m hm hA).2] at he
            exact absurd (he ▸ hmem n hB hnj) hA
          · rw [(h.fin m hm hA).2, (h.fin n hn hB).2] at he; exact he
      · intro m hm
        by_cases hmj : m = j
        · subst hmj
          simp only [setAt, if_true]
          exact h.tmp m h.jA hk
        · by_cases hA : m ∈ A
          · simp only [setAt, hmj, if_false, hne m hA hmj]
            exact h.val m hA (hni m hA hmj)
          · simp only [setAt, hmj, if_false, (h.fin m hm hA).2]
            exact (h.fin m hm hA).1
      · intro m hm
        by_cases hmj : m = j <;> simp [setAt, hmj, hm]
    · rw [if_neg hk]
      have hkj : idx j ≠ j := by
        intro he
        have := h.hole j h.jA he
        exact hk (by rw [he, this])
      have hkA : idx j ∈ A := by
        rcases h.into j h.jA with h1 | h1
        · exact h1
        · exact absurd h1 hk
      have hcard : (A.erase j).card ≤ f := by
        rw [Finset.card_erase_of_mem h.jA]; omega
      obtain ⟨a', idx', e, h1, h2, h3⟩ := ih (A.erase j) (setAt a j (a (idx j))) (setAt idx j j) (idx j) hcard (by
        constructor
        · intro m hm; exact h.sub m (Finset.mem_of_mem_erase hm)
        · exact Finset.mem_erase.mpr ⟨hkj, hkA⟩
        · intro m hm n hn he
          have hm' := Finset.mem_erase.mp hm
          have hn' := Finset.mem_erase.mp hn
          simp only [setAt, hm'.1, hn'.1, if_false] at he
          exact h.inj m hm'.2 n hn'.2 he
        · intro m hm he
          have hm' := Finset.mem_erase.mp hm
          simp only [setAt, hm'.1, if_false] at he
          exact absurd (h.inj m hm'.2 j h.jA he) hm'.1
        · intro m hm
          have hm' := Finset.mem_erase.mp hm
          simp only [setAt, hm'.1, if_false]
          by_cases he : idx m = j
          · right; rw [he]; exact h.hole m hm'.2 he
          · rcases h.into m hm'.2 with h1 | h1
            · exact .inl (Finset.mem_erase.mpr ⟨he, h1⟩)
            · exact .inr h1
        · intro m hm he
          have hm' := Finset.mem_erase.mp hm
          simp only [setAt, hm'.1, if_false] at he
          exact h.tmp m hm'.2 he
        · intro m hm he
          have hm' := Finset.mem_erase.mp hm
          simp only [setAt, hm'.1, if_false] at he ⊢
          have : idx m ≠ j := fun e => he (by rw [e]; exact h.hole m hm'.2 e)
          simp only [this, if_false]
          exact h.val m hm'.2 he
        · intro m hm hA
          by_cases hmj : m = j
          · subst hmj
            simp only [setAt, if_true, and_true]
            exact h.val m h.jA hk
          · have : m ∉ A := fun hA' => hA (Finset.mem_erase.mpr ⟨hmj, hA'⟩)
            simp only [setAt, hmj, if_false]
            exact h.fin m hm this)
      refine ⟨a', idx', e, h1, h3 j (by simp [setAt]), ?_⟩
      intro m hm
      exact h3 m (by by_cases hmj : m = j <;> simp [setAt, hmj, hm])

theorem reorderStep_ok {a : Nat → α} {idx : Nat → Nat} {i : Nat} (hi : i < len) (h : ReInv len T a idx) :
    ∃ a' idx', reorderStep len (a, idx) i = .ok (a', idx') ∧ ReInv len T a' idx' ∧ idx' i = i ∧
      ∀ m, idx m = m → idx' m = m := by
  unfold reorderStep
  by_cases hs : idx i = i
  · simp only [hs, if_true]
    exact ⟨a, idx, rfl, h, hs, fun _ hm => hm⟩
  · simp only [hs, if_false]
    exact cycle_ok len (Finset.range len) a idx i (by simp) ⟨fun m hm => Finset.mem_range.mp hm,
      Finset.mem_range.mpr hi,
      fun m hm n hn => h.inj m n (Finset.mem_range.mp hm) (Finset.mem_range.mp hn),
      fun _ _ _ => rfl,
      fun m hm => .inl (Finset.mem_range.mpr (h.lt m (Finset.mem_range.mp hm))),
      fun m hm he => he ▸ h.val m (Finset.mem_range.mp hm),
      fun m hm _ => h.val m (Finset.mem_range.mp hm),
      fun m hm hA => absurd (Finset.mem_range.mpr hm) hA⟩

theorem reorderLoop_ok : ∀ (is : List Nat) (a : Nat → α) (idx : Nat → Nat), (∀ i ∈ is, i < len) →
    ReInv len T a idx →
    ∃ a' idx', reorderLoop len is (a, idx) = .ok (a', idx') ∧ ReInv len T a' idx' ∧
      (∀ i ∈ is, idx' i = i) ∧ ∀ m, idx m = m → idx' m = m := by
  intro is
  induction is with
  | nil => intro a idx _ h; exact ⟨a, idx, rfl, h, by simp, fun _ hm => hm⟩
  | cons i is ih =>
    intro a idx hlt h
    obtain ⟨a1, idx1, e1, h1, hi, hk⟩ := reorderStep_ok (hlt i (List.mem_cons_self ..)) h
    obtain ⟨a2, idx2, e2, h2, his, hk2⟩ := ih a1 idx1 (fun j hj => hlt j (List.mem_cons_of_mem _ hj)) h1
    refine ⟨a2, idx2, ?_, h2, ?_, fun m hm => hk2 m (hk m hm)⟩
    · unfold reorderLoop
      rw [e1]; exact e2
    · intro j hj
      rcases List.mem_cons.mp hj with rfl | hj
      · exact hk2 _ hi
      · exact his j hj

/-- The in-place reordering of `sortblocks` puts element `idx[i]` in slot `i`, for every permutation. -/
theorem reorder_ok (a : Nat → α) (idx : List Nat) (h : idx.Perm (List.range len)) :
    ∃ a' idx', reorderLoop len (List.range len) (a, fun i => idx.getD i i) = .ok (a', idx') ∧
      ∀ i, i < len → a' i = a (idx.getD i i) := by
  have hlen : idx.length = len := by simpa using h.length_eq
  have hnd : idx.Nodup := h.nodup_iff.mpr List.nodup_range
  have hg : ∀ i, i < len → ∃ hi : i < idx.length, idx.getD i i = idx[i] := by
    intro i hi
    exact ⟨by omega, by simp [List.getD_eq_getElem?_getD, List.getElem?_eq_getElem (show i < idx.length by omega)]⟩
  obtain ⟨a', idx', e, h1, h2, _⟩ := reorderLoop_ok (len := len) (T := fun i => a (idx.getD i i)) (List.range len) a
    (fun i => idx.getD i i) (by simp) ⟨by
      intro m hm
      obtain ⟨hi, e⟩ := hg m hm
      simp only [e]
      exact List.mem_range.mp (h.mem_iff.mp (List.getElem_mem hi)), by
      intro m n hm hn he
      obtain ⟨hi, e⟩ := hg m hm
      obtain ⟨hi', e'⟩ := hg n hn
      simp only [e, e'] at he
      exact (List.Nodup.getElem_inj_iff hnd).mp he, fun _ _ => rfl⟩
  refine ⟨a', idx', e, ?_⟩
  intro i hi
  have := h1.val i hi
  rw [h2 i (List.mem_range.mpr hi)] at this
  exact this

end

end Verif
