import Verif.Lemmas.Pairs

/-
Pieces of the file that are wanted at several addresses: what the copies after the read achieve.
-/

namespace Verif

/-- Pieces that begin and end in order; none lies strictly inside an earlier one. -/
def Mono (l : List Seg) : Prop :=
  l.Pairwise (fun a b : Seg => a.f ≤ b.f ∧ a.f + (a.len : Int) ≤ b.f + (b.len : Int))

/-- Addresses written by a copy. -/
def Copy.dsts (c : Copy) : List Nat := (List.range c.size).map (fun i => c.dst + i)

theorem mem_dsts {c : Copy} {a : Nat} : a ∈ c.dsts ↔ ∃ j < c.size, c.dst + j = a := by
  simp [Copy.dsts]

theorem mem_segPairs {s : Seg} {u : Int × Nat} : u ∈ s.pairs ↔ ∃ i < s.len, u = (s.f + (i : Nat), s.m + i) := by
  unfold Seg.pairs
  rw [List.mem_map]
  constructor
  · rintro ⟨i, h, rfl⟩; exact ⟨i, by simpa using h, rfl⟩
  · rintro ⟨i, h, rfl⟩; exact ⟨i, by simpa using h, rfl⟩

/-- Shape of one step for pieces in order. -/
theorem trimOne_mono {k l : Seg} (h : k.f + (k.len : Int) ≤ l.f + (l.len : Int)) :
    ∃ n : Nat, n ≤ l.len ∧ (trimOne k l).1 = { f := l.f + n, m := l.m + n, len := l.len - n } ∧
      l.f + n = max l.f (k.f + (k.len : Int)) ∧
      (trimOne k l).2.flatMap Copy.dsts = (List.range n).map (fun i => l.m + i) ∧
      ∀ c ∈ (trimOne k l).2, c.dst = l.m ∧ c.size = n ∧ l.f + n ≤ k.f + (k.len : Int) ∧
        c.src = (k.m : Int) + (l.f - k.f) := by
  unfold trimOne
  by_cases hl : l.f < k.f + (k.len : Int)
  · rw [if_pos hl]
    refine ⟨min l.len (k.f - l.f + k.len).toNat, by omega, rfl, by omega, ?_, ?_⟩
    · simp [Copy.dsts]
    · intro c hc
      simp only [List.mem_singleton] at hc
      subst hc
      refine ⟨rfl, rfl, by omega, ?_⟩
      simp only
      omega
  · rw [if_neg hl]
    refine ⟨0, by omega, by simp, by omega, by simp, by simp⟩

theorem pairs_split {s : Seg} {n : Nat} (h : n ≤ s.len) :
    (List.range n).map (fun i => s.m + i) ++
      (Seg.pairs { f := s.f + n, m := s.m + n, len := s.len - n }).map Prod.snd = s.pairs.map Prod.snd := by
  unfold Seg.pairs
  obtain ⟨d, hd⟩ := Nat.exists_eq_add_of_le h
  rw [hd, List.range_add, Nat.add_sub_cancel_left]
  simp [Function.comp_def, Nat.add_assoc]

theorem trim_mono_step {k : Seg} {ls : List Seg} (h : Mono (k :: ls)) :
    Mono ((ls.map (trimOne k)).map Prod.fst) ∧
    (∀ x ∈ (ls.map (trimOne k)).map Prod.fst, k.f + (k.len : Int) ≤ x.f) := by
  have h' := List.pairwise_cons.mp h
  constructor
  · unfold Mono
    rw [List.pairwise_map, List.pairwise_map]
    refine (List.Pairwise.and_mem.mp h'.2).imp ?_
    rintro a b ⟨ha, hb, h1, h2⟩
    obtain ⟨n, n1, n2, n3, _⟩ := trimOne_mono (h'.1 a ha).2
    obtain ⟨m, m1, m2, m3, _⟩ := trimOne_mono (h'.1 b hb).2
    rw [n2, m2]
    simp only
    omega
  · intro x hx
    rw [List.map_map, List.mem_map] at hx
    obtain ⟨a, ha, rfl⟩ := hx
    obtain ⟨n, n1, n2, n3, _⟩ := trimOne_mono (h'.1 a ha).2
    simp only [Function.comp, n2]
    omega

/-- One pass of the outer loop moves addresses from the pieces to the copies. -/
theorem trim_step_perm {k : Seg} : ∀ {ls : List Seg},
    (∀ l ∈ ls, k.f ≤ l.f ∧ k.f + (k.len : Int) ≤ l.f + (l.len : Int)) →
    ((((ls.map (trimOne k)).map Prod.fst).flatMap Seg.pairs).map Prod.snd ++
      ((ls.map (trimOne k)).flatMap Prod.snd).flatMap Copy.dsts).Perm ((ls.flatMap Seg.pairs).map Prod.snd)
  | [], _ => by simp
  | l :: ls, h => by
    obtain ⟨n, n1, n2, n3, n4, _⟩ := trimOne_mono (h l (by simp)).2
    have ih := trim_step_perm (ls := ls) (fun x hx => h x (by simp [hx]))
    have hs := pairs_split n1
    simp only [List.map_cons, List.flatMap_cons, List.map_append, List.flatMap_append]
    rw [n4, n2, ← hs]
    obtain ⟨A, hA⟩ : ∃ A, A = (Seg.pairs { f := l.f + n, m := l.m + n, len := l.len - n }).map Prod.snd := ⟨_, rfl⟩
    obtain ⟨B, hB⟩ : ∃ B, B = (List.range n).map (fun i => l.m + i) := ⟨_, rfl⟩
    rw [← hA, ← hB]
    refine List.Perm.trans ?_ (ih.append_left (B ++ A))
    rw [List.append_assoc, List.append_assoc]
    refine (List.perm_append_comm_assoc _ _ _).trans ?_
    refine List.Perm.trans ?_ (List.perm_append_comm_assoc A B _)
    refine (List.perm_append_comm_assoc _ _ _).trans ?_
    refine List.Perm.append_left A ?_
    exact List.perm_append_comm_assoc _ _ _

theorem trim_sub {k : Seg} {ls : List Seg}
    (h : ∀ l ∈ ls, k.f ≤ l.f ∧ k.f + (k.len : Int) ≤ l.f + (l.len : Int)) {u : Int × Nat}
    (hu : u ∈ ((ls.map (trimOne k)).map Prod.fst).flatMap Seg.pairs) : u ∈ ls.flatMap Seg.pairs := by
  obtain ⟨x, hx, hu⟩ := List.mem_flatMap.mp hu
  rw [List.map_map, List.mem_map] at hx
  obtain ⟨l, hl, rfl⟩ := hx
  obtain ⟨n, n1, n2, _⟩ := trimOne_mono (h l hl).2
  simp only [Function.comp, n2] at hu
  obtain ⟨i, hi, rfl⟩ := mem_segPairs.mp hu
  refine List.mem_flatMap.mpr ⟨l, hl, mem_segPairs.mpr ⟨n + i, by simp only at hi; omega, ?_⟩⟩
  simp only [Prod.mk.injEq]
  omega

/-- What the pieces and copies of one group achieve. -/
theorem trim_spec : ∀ {l : List Seg}, Mono l →
    Apart (trim l).1 ∧ (∀ lo : Int, (∀ y ∈ l, lo ≤ y.f) → ∀ x ∈ (trim l).1, lo ≤ x.f) ∧
    ((((trim l).1.flatMap Seg.pairs).map Prod.snd) ++ (trim l).2.flatMap Copy.dsts).Perm
      ((l.flatMap Seg.pairs).map Prod.snd) ∧
    (∀ u ∈ (trim l).1.flatMap Seg.pairs, u ∈ l.flatMap Seg.pairs) ∧
    (∀ c ∈ (trim l).2, ∀ j < c.size, ∃ (b : Nat) (f : Int), c.src + (j : Nat) = (b : Int) ∧
      (f, b) ∈ (trim l).1.flatMap Seg.pairs ∧ (f, c.dst + j) ∈ l.flatMap Seg.pairs)
  | [], _ => by simp [trim, Apart]
  | k :: ls, h => by
    have h' := List.pairwise_cons.mp h
    obtain ⟨s1, s2⟩ := trim_mono_step h
    have hlen : ((ls.map (trimOne k)).map Prod.fst).length < (k :: ls).length := by simp
    obtain ⟨t1, t2, t3, t4, t5⟩ := trim_spec s1
    have p := trim_step_perm h'.1
    unfold trim
    simp only
    obtain ⟨t, ht⟩ : ∃ t, t = trim ((ls.map (trimOne k)).map Prod.fst) := ⟨_, rfl⟩
    rw [← ht] at t1 t2 t3 t4 t5 ⊢
    refine ⟨List.pairwise_cons.mpr ⟨fun b hb => t2 _ s2 b hb, t1⟩, ?_, ?_, ?_, ?_⟩
    · intro lo hlo x hx
      rcases List.mem_cons.mp hx with rfl | hx
      · exact hlo _ (by simp)
      · refine t2 lo ?_ x hx
        intro y hy
        have := s2 y hy
        have := hlo k (by simp)
        omega
    · simp only [List.flatMap_cons, List.map_append, List.flatMap_append, List.append_assoc]
      refine List.Perm.append_left _ ?_
      refine (List.perm_append_comm_assoc _ _ _).trans ?_
      refine (List.Perm.append_left _ t3).trans ?_
      exact List.perm_append_comm.trans p
    · intro u hu
      rw [List.flatMap_cons, List.mem_append] at hu ⊢
      rcases hu with hu | hu
      · exact Or.inl hu
      · exact Or.inr (trim_sub h'.1 (t4 u hu))
    · intro c hc j hj
      rcases List.mem_append.mp hc with hc | hc
      · rw [List.flatMap_map] at hc
        obtain ⟨l, hl, hc⟩ := List.mem_flatMap.mp hc
        obtain ⟨n, n1, n2, n3, n4, n5⟩ := trimOne_mono (h'.1 l hl).2
        obtain ⟨c1, c2, c3, c4⟩ := n5 c hc
        have hkl := (h'.1 l hl).1
        refine ⟨k.m + (l.f - k.f).toNat + j, l.f + (j : Nat), ?_, ?_, ?_⟩
        · rw [c4]; push_cast; omega
        · rw [List.flatMap_cons, List.mem_append]
          left
          refine mem_segPairs.mpr ⟨(l.f - k.f).toNat + j, by omega, ?_⟩
          simp only [Prod.mk.injEq]
          omega
        · rw [List.flatMap_cons, List.mem_append]
          right
          refine List.mem_flatMap.mpr ⟨l, hl, mem_segPairs.mpr ⟨j, by omega, ?_⟩⟩
          rw [c1]
      · obtain ⟨b, f, b1, b2, b3⟩ := t5 c hc j hj
        refine ⟨b, f, b1, ?_, ?_⟩
        · rw [List.flatMap_cons, List.mem_append]; exact Or.inr b2
        · rw [List.flatMap_cons, List.mem_append]; exact Or.inr (trim_sub h'.1 b3)
termination_by l => l.length

/-! ### Pieces in any position: the pieces left have increasing displacements -/

theorem trimOne_any (k l : Seg) : ∃ n : Nat, n ≤ l.len ∧ (trimOne k l).1 = { f := l.f + n, m := l.m + n, len := l.len - n } ∧
    (n < l.len → l.f + n = max l.f (k.f + (k.len : Int))) ∧ l.f + n ≤ max l.f (k.f + (k.len : Int)) := by
  unfold trimOne
  by_cases hl : l.f < k.f + (k.len : Int)
  · rw [if_pos hl]
    exact ⟨min l.len (k.f - l.f + k.len).toNat, by omega, rfl, by omega, by omega⟩
  · rw [if_neg hl]
    exact ⟨0, by omega, by simp, by omega, by omega⟩

/-- Pieces that are not empty begin in order. -/
def Begins (l : List Seg) : Prop := l.Pairwise (fun a b : Seg => 0 < b.len → a.f ≤ b.f)

theorem trim_view : ∀ {l : List Seg}, Begins l →
    (trim l).1.Pairwise (fun a b : Seg => 0 < b.len → a.f + (a.len : Int) ≤ b.f) ∧
    (∀ lo : Int, (∀ y ∈ l, 0 < y.len → lo ≤ y.f) → ∀ x ∈ (trim l).1, 0 < x.len → lo ≤ x.f) ∧
    (∀ u ∈ (trim l).1.flatMap Seg.pairs, u ∈ l.flatMap Seg.pairs)
  | [], _ => by simp [trim]
  | k :: ls, h => by
    have h' := List.pairwise_cons.mp h
    have hb : Begins ((ls.map (trimOne k)).map Prod.fst) := by
      unfold Begins
      rw [List.pairwise_map, List.pairwise_map]
      refine h'.2.imp ?_
      intro a b hab
      obtain ⟨n, n1, n2, n3, n4⟩ := trimOne_any k a
      obtain ⟨m, m1, m2, m3, m4⟩ := trimOne_any k b
      rw [n2, m2]
      simp only
      intro hl
      have := hab (by omega)
      have := m3 (by omega)
      omega
    have hge : ∀ y ∈ (ls.map (trimOne k)).map Prod.fst, 0 < y.len → k.f + (k.len : Int) ≤ y.f := by
      intro y hy hl
      rw [List.map_map, List.mem_map] at hy
      obtain ⟨l, _, rfl⟩ := hy
      obtain ⟨n, n1, n2, n3, n4⟩ := trimOne_any k l
      simp only [Function.comp, n2] at hl ⊢
      have := n3 (by omega)
      omega
    have hlen : ((ls.map (trimOne k)).map Prod.fst).length < (k :: ls).length := by simp
    obtain ⟨t1, t2, t3⟩ := trim_view hb
    unfold trim
    simp only
    refine ⟨List.pairwise_cons.mpr ⟨fun b hb hl => t2 _ hge b hb hl, t1⟩, ?_, ?_⟩
    · intro lo hlo x hx hl
      rcases List.mem_cons.mp hx with rfl | hx
      · exact hlo _ (by simp) hl
      · refine t2 lo ?_ x hx hl
        intro y hy hyl
        rw [List.map_map, List.mem_map] at hy
        obtain ⟨l, hm, rfl⟩ := hy
        obtain ⟨n, n1, n2, n3, n4⟩ := trimOne_any k l
        simp only [Function.comp, n2] at hyl ⊢
        have := hlo l (by simp [hm]) (by omega)
        omega
    · intro u hu
      rw [List.flatMap_cons, List.mem_append] at hu ⊢
      rcases hu with hu | hu
      · exact Or.inl hu
      · right
        obtain ⟨x, hx, hu⟩ := List.mem_flatMap.mp (t3 u hu)
        rw [List.map_map, List.mem_map] at hx
        obtain ⟨l, hl, rfl⟩ := hx
        obtain ⟨n, n1, n2, _⟩ := trimOne_any k l
        simp only [Function.comp, n2] at hu
        obtain ⟨i, hi, rfl⟩ := mem_segPairs.mp hu
        refine List.mem_flatMap.mpr ⟨l, hl, mem_segPairs.mpr ⟨n + i, by simp only at hi; omega, ?_⟩⟩
        simp only [Prod.mk.injEq]
        omega
termination_by l => l.length

end Verif
