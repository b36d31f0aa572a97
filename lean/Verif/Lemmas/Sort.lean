import Verif.Model.Sort

namespace Verif

theorem bubblePass_sorted : ∀ l : List Seg, (bubblePass l).2 = false →
    (bubblePass l).1 = l ∧ l.Pairwise (fun a b => a.f ≤ b.f)
  | [], _ => by simp [bubblePass]
  | [_], _ => by simp [bubblePass]
  | x :: y :: r, h => by
    unfold bubblePass at h ⊢
    by_cases hxy : y.f < x.f
    · rw [if_pos hxy] at h; simp at h
    · rw [if_neg hxy] at h ⊢
      have ih := bubblePass_sorted (y :: r) h
      refine ⟨by simp [ih.1], ?_⟩
      refine List.Pairwise.cons ?_ ih.2
      intro z hz
      simp only [List.mem_cons] at hz
      rcases hz with rfl | hz
      · omega
      · have := List.rel_of_pairwise_cons ih.2 hz
        omega

theorem bubbleSort_perm (l : List Seg) : (bubbleSort l).Perm l := by
  induction l using bubbleSort.induct with
  | case1 l h ih =>
    rw [bubbleSort, if_pos h]
    exact ih.trans (bubblePass_perm l)
  | case2 l h =>
    rw [bubbleSort, if_neg h]
    exact bubblePass_perm l

theorem bubbleSort_sorted (l : List Seg) : (bubbleSort l).Pairwise (fun a b => a.f ≤ b.f) := by
  induction l using bubbleSort.induct with
  | case1 l h ih =>
    rw [bubbleSort, if_pos h]
    exact ih
  | case2 l h =>
    rw [bubbleSort, if_neg h]
    have := bubblePass_sorted l (by simpa using h)
    rw [this.1]
    exact this.2

theorem partLoop_bounds (p : Int) : ∀ (rest lo hi : List Seg),
    (∀ x ∈ lo, x.f < p) → (∀ x ∈ hi, p ≤ x.f) →
    (∀ x ∈ (partLoop p lo hi rest).1, x.f < p) ∧ (∀ x ∈ (partLoop p lo hi rest).2, p ≤ x.f)
  | [], lo, hi, h1, h2 => by simpa [partLoop] using ⟨h1, h2⟩
  | x :: rest, lo, hi, h1, h2 => by
    unfold partLoop
    have key : ∀ y ∈ lo ++ [x], x.f < p → y.f < p := by
      intro y hy hx
      simp only [List.mem_append, List.mem_singleton] at hy
      rcases hy with hy | rfl
      · exact h1 y hy
      · exact hx
    split
    · rename_i hx
      split
      · exact partLoop_bounds p rest _ _ (fun y hy => key y hy hx) (by simp)
      · rename_i g gs
        refine partLoop_bounds p rest _ _ (fun y hy => key y hy hx) ?_
        intro y hy
        refine h2 y ?_
        simp only [List.mem_append, List.mem_singleton] at hy
        rcases hy with hy | rfl <;> simp [*]
    · rename_i hx
      refine partLoop_bounds p rest _ _ h1 ?_
      intro y hy
      simp only [List.mem_append, List.mem_singleton] at hy
      rcases hy with hy | rfl
      · exact h2 y hy
      · omega

theorem rotHi_perm (l : List Seg) : (rotHi l).Perm l := by
  cases l with
  | nil => simp [rotHi]
  | cons g gs => exact List.perm_append_comm (l₁ := gs) (l₂ := [g])

theorem sortoffsets_spec (n : Nat) : ∀ l : List Seg, l.length ≤ n →
    (sortoffsets l).Perm l ∧ (sortoffsets l).Pairwise (fun a b => a.f ≤ b.f) := by
  induction n with
  | zero =>
    intro l hl
    have : l = [] := List.length_eq_zero_iff.mp (by omega)
    subst this
    rw [sortoffsets]
    simp only [List.length_nil, Nat.zero_lt_succ, dite_true]
    exact ⟨bubbleSort_perm _, bubbleSort_sorted _⟩
  | succ n ih =>
    intro l hl
    rw [sortoffsets]
    by_cases h : l.length < 16
    · rw [dif_pos h]
      exact ⟨bubbleSort_perm _, bubbleSort_sorted _⟩
    · rw [dif_neg h]
      have hne : l ≠ [] := by intro he; simp [he] at h
      simp only
      have h1 := takePivot_perm l hne
      have h2 := partLoop_perm (takePivot l hne).1.f (takePivot l hne).2 [] []
      have h3 := partLoop_bounds (takePivot l hne).1.f (takePivot l hne).2 [] [] (by simp) (by simp)
      generalize takePivot l hne = tp at *
      generalize partLoop tp.1.f [] [] tp.2 = lh at *
      obtain ⟨p, t⟩ := tp
      obtain ⟨lo, hi⟩ := lh
      simp only [List.append_nil, List.nil_append] at *
      have l1 := h1.length_eq
      have l2 := h2.length_eq
      simp only [List.length_cons, List.length_append] at l1 l2
      have hr := rotHi_perm hi
      obtain ⟨p1, s1⟩ := ih lo (by omega)
      obtain ⟨p2, s2⟩ := ih (rotHi hi) (by rw [hr.length_eq]; omega)
      have p2' := p2.trans hr
      refine ⟨?_, ?_⟩
      · refine List.Perm.trans ?_ h1
        refine (List.perm_middle).trans (List.Perm.cons p ?_)
        exact (List.Perm.append p1 p2').trans h2
      · rw [List.pairwise_append]
        refine ⟨s1, ?_, ?_⟩
        · refine List.Pairwise.cons ?_ s2
          intro y hy
          exact h3.2 y (p2'.mem_iff.mp hy)
        · intro a ha b hb
          have ha' := h3.1 a (p1.mem_iff.mp ha)
          simp only [List.mem_cons] at hb
          rcases hb with rfl | hb
          · omega
          · have := h3.2 b (p2'.mem_iff.mp hb)
            omega

theorem sortoffsets_perm (l : List Seg) : (sortoffsets l).Perm l :=
  (sortoffsets_spec l.length l (Nat.le_refl _)).1

theorem sortoffsets_sorted (l : List Seg) : (sortoffsets l).Pairwise (fun a b => a.f ≤ b.f) :=
  (sortoffsets_spec l.length l (Nat.le_refl _)).2

end Verif
