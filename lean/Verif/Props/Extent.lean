import Verif.Model.Extent

/-
C28: changing the extent of a dataset.
-/

namespace Verif.Props

/-- Every requested size is within the maximum. -/
def Spec.Within (mdims : List (Option Nat)) (new : List Nat) : Prop :=
  ∀ i m n : Nat, mdims[i]? = some (some m) → new[i]? = some n → n ≤ m

theorem within_cons {m : Option Nat} {ms : List (Option Nat)} {n : Nat} {ns : List Nat} :
    Spec.Within (m :: ms) (n :: ns) ↔ (∀ k, m = some k → n ≤ k) ∧ Spec.Within ms ns := by
  constructor
  · intro h
    refine ⟨fun k hk => h 0 k n (by simp [hk]) rfl, fun i a b ha hb => h (i + 1) a b (by simpa using ha) (by simpa using hb)⟩
  · rintro ⟨h1, h2⟩ i a b ha hb
    cases i with
    | zero =>
      simp at ha hb
      subst hb
      exact h1 a ha
    | succ i => exact h2 i a b (by simpa using ha) (by simpa using hb)

theorem extentLoop_spec (mdims : List (Option Nat)) (new old : List Nat) (h1 : mdims.length = old.length)
    (h2 : new.length = old.length) :
    (Spec.Within mdims new ∧ extentLoop mdims new old = (true, new)) ∨
    ∃ k m n, k < old.length ∧ mdims[k]? = some (some m) ∧ new[k]? = some n ∧ m < n ∧
      Spec.Within (mdims.take k) (new.take k) ∧
      extentLoop mdims new old = (false, new.take k ++ old.drop k) := by
  induction old generalizing mdims new with
  | nil =>
    left
    cases mdims <;> cases new <;> simp_all
    refine ⟨fun i m n h => by simp at h, rfl⟩
  | cons d ds ih =>
    cases mdims with
    | nil => simp at h1
    | cons m ms =>
      cases new with
      | nil => simp at h2
      | cons n ns =>
        have ih := ih ms ns (by simpa using h1) (by simpa using h2)
        by_cases hm : m.any (fun k => decide (k < n)) = true
        · right
          cases m with
          | none => simp at hm
          | some k =>
            simp at hm
            refine ⟨0, k, n, by simp, rfl, rfl, hm, fun i a b ha => by simp at ha, ?_⟩
            rw [extentLoop, if_pos (by simpa using hm)]
            rfl
        · have hk : ∀ k, m = some k → n ≤ k := by
            intro k e
            subst e
            simpa using hm
          rcases ih with ⟨h3, h4⟩ | ⟨k, a, b, h3, h4, h5, h6, h7, h8⟩
          · left
            refine ⟨within_cons.mpr ⟨hk, h3⟩, ?_⟩
            rw [extentLoop, if_neg hm, h4]
          · right
            refine ⟨k + 1, a, b, by simpa using h3, by simpa using h4, by simpa using h5, h6, ?_, ?_⟩
            · rw [List.take_succ_cons, List.take_succ_cons]
              exact within_cons.mpr ⟨hk, h7⟩
            · rw [extentLoop, if_neg hm, h8]
              simp

/-- **C28, success (partial).** If every requested size is within the maximum and the attribute can be written, the call
succeeds and the extent in memory, the extent in the file and the radix table are those of the request. -/
theorem C28_success_partial (mdims : List (Option Nat)) (new : List Nat) (st : ExtState)
    (h1 : mdims.length = st.dims.length) (h2 : new.length = st.dims.length) (h0 : st.dims ≠ [])
    (h : Spec.Within mdims new) :
    setExtent true true mdims new st = .ok (true, ⟨new, dsteps new, new⟩) ∧
    setExtent false true mdims new st = .ok (true, { st with dims := new, att := new }) := by
  have hl : extentLoop mdims new st.dims = (true, new) := by
    rcases extentLoop_spec mdims new st.dims h1 h2 with h3 | ⟨k, m, n, _, h4, h5, h6, _⟩
    · exact h3.2
    · have := h k m n h4 h5
      omega
  have hn : new ≠ [] := by
    intro e
    rw [e] at h2
    exact h0 (List.length_eq_zero_iff.mp h2.symm)
  unfold setExtent
  simp [hl, hn]

/-- **C28, failure (partial).** If some requested size exceeds the maximum the call fails; the file is not changed.  The
extent in memory is the requested one before the first offending dimension and the old one from there on; it is unchanged
exactly if the sizes requested before the offending dimension are the current ones (in particular if the first dimension
offends).  Missing: the other cases, see `C28_extent_violated`. -/
theorem C28_failure_partial (enc attOK : Bool) (mdims : List (Option Nat)) (new : List Nat) (st : ExtState)
    (h1 : mdims.length = st.dims.length) (h2 : new.length = st.dims.length) (h : ¬ Spec.Within mdims new) :
    ∃ k st', k < st.dims.length ∧ Spec.Within (mdims.take k) (new.take k) ∧ ¬ Spec.Within (mdims.take (k + 1)) (new.take (k + 1)) ∧
      setExtent enc attOK mdims new st = .ok (false, st') ∧ st'.att = st.att ∧ st'.steps = st.steps ∧
      st'.dims = new.take k ++ st.dims.drop k ∧ (st'.dims = st.dims ↔ new.take k = st.dims.take k) := by
  rcases extentLoop_spec mdims new st.dims h1 h2 with h3 | ⟨k, m, n, hk, h4, h5, h6, h7, h8⟩
  · exact absurd h3.1 h
  · refine ⟨k, { st with dims := new.take k ++ st.dims.drop k }, hk, h7, ?_, ?_, rfl, rfl, rfl, ?_⟩
    · intro hw
      have := hw k m n (by rw [List.getElem?_take_of_lt (Nat.lt_succ_self k)]; exact h4)
        (by rw [List.getElem?_take_of_lt (Nat.lt_succ_self k)]; exact h5)
      omega
    · unfold setExtent
      simp [h8]
    · show new.take k ++ st.dims.drop k = st.dims ↔ _
      constructor
      · intro e
        have := congrArg (List.take k) e
        rw [List.take_append_of_le_length (by rw [List.length_take]; omega), List.take_take, Nat.min_self] at this
        exact this
      · intro e
        rw [e, List.take_append_drop]

/-- **C28 is violated.** The call fails because of the third dimension, but the second one has been changed in memory: the
extent reported afterwards is neither the old nor the requested one, it differs from the one in the file, and the radix
table belongs to the old extent, so that a block written at row 6 of the new extent is decoded at another place. -/
theorem C28_extent_violated :
    ∃ st st', ExtState.create [4, 4, 4] = .ok st ∧
      setExtent true true [none, none, some 4] [4, 8, 9] st = .ok (false, st') ∧
      st'.dims = [4, 8, 4] ∧ st'.att = [4, 4, 4] ∧
      selDecode st'.steps (selEncode st'.steps [0, 6, 0]) = .ok [1, 2, 0] := by
  exact ⟨⟨[4, 4, 4], [16, 4, 1], [4, 4, 4]⟩, ⟨[4, 8, 4], [16, 4, 1], [4, 4, 4]⟩, by decide, by decide, rfl, rfl, by decide⟩

/-- **C28 is violated for datasets without dimensions.** Creating one with selection encoding on writes the radix table out
of bounds. -/
theorem C28_scalar_violated : ExtState.create [] = .ub ∧ ∀ st, st.dims = [] → setExtent true true [] [] st = .ub := by
  refine ⟨rfl, ?_⟩
  intro st h
  unfold setExtent
  simp [h, extentLoop]

/-! ### Concrete cases -/

example : Spec.Within [none, some 10] [100, 10] ∧
    setExtent true true [none, some 10] [100, 10] ⟨[4, 5], [5, 1], [4, 5]⟩ = .ok (true, ⟨[100, 10], [10, 1], [100, 10]⟩) := by
  refine ⟨?_, by decide⟩
  rw [within_cons, within_cons]
  refine ⟨by simp, by simp, fun i m n h => by simp at h⟩

example : ¬ Spec.Within [some 4, none] [5, 9] ∧
    setExtent true true [some 4, none] [5, 9] ⟨[4, 5], [5, 1], [4, 5]⟩ = .ok (false, ⟨[4, 5], [5, 1], [4, 5]⟩) := by
  refine ⟨?_, by decide⟩
  rw [within_cons]
  simp

end Verif.Props
