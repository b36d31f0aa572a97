import Verif.Lemmas.ProductRows
import Verif.Lemmas.Strided
import Verif.Spec.Regular

/-
Regular hyperslabs as products.
-/

namespace Verif
open Spec

/-- The blocks of one dimension. -/
def dimSegs (s t c b : Nat) : List (Nat × Nat) := (List.range c).map (fun i => (s + t * i, b))

def gridDims : List Nat → List Nat → List Nat → List Nat → List (List (Nat × Nat))
  | s :: ss, t :: ts, c :: cs, b :: bs => dimSegs s t c b :: gridDims ss ts cs bs
  | _, _, _, _ => []

theorem dimSegs_length (s t c b : Nat) : (dimSegs s t c b).length = c := by simp [dimSegs]

theorem dimSegs_ok {s t c b : Nat} (hc : 1 ≤ c) (hb : 1 ≤ b) (h : 1 < c → b ≤ t) : SegsOK (dimSegs s t c b) := by
  refine ⟨?_, ?_, ?_⟩
  · intro e
    have := dimSegs_length s t c b
    rw [e] at this
    simp at this
    omega
  · intro a ha
    simp only [dimSegs, List.mem_map] at ha
    obtain ⟨_, _, rfl⟩ := ha
    exact hb
  · unfold dimSegs
    rw [List.pairwise_map]
    refine (List.pairwise_lt_range (n := c)).imp_of_mem ?_
    intro i j hi hj hij
    rw [List.mem_range] at hi hj
    have h1 := h (by omega)
    have h2 : t * (i + 1) ≤ t * j := Nat.mul_le_mul_left t hij
    rw [Nat.mul_add] at h2
    simp only
    omega

theorem gridDims_ok : ∀ {s t c b : List Nat}, GridOK s t c b → ∀ A ∈ gridDims s t c b, SegsOK A
  | [], [], [], [], _ => by simp [gridDims]
  | s :: ss, t :: ts, c :: cs, b :: bs, h => by
    intro A hA
    rw [gridDims, List.mem_cons] at hA
    rcases hA with rfl | hA
    · exact dimSegs_ok h.1 h.2.1 h.2.2.1
    · exact gridDims_ok h.2.2.2 A hA
  | [], [], [], _ :: _, h | [], [], _ :: _, _, h | [], _ :: _, _, _, h | _ :: _, [], _, _, h
  | _ :: _, _ :: _, [], _, h | _ :: _, _ :: _, _ :: _, [], h => by simp [GridOK] at h

theorem gridDims_length : ∀ {s t c b : List Nat}, GridOK s t c b → (gridDims s t c b).length = s.length
  | [], [], [], [], _ => rfl
  | s :: ss, t :: ts, c :: cs, b :: bs, h => by simp [gridDims, gridDims_length h.2.2.2]
  | [], [], [], _ :: _, h | [], [], _ :: _, _, h | [], _ :: _, _, _, h | _ :: _, [], _, _, h
  | _ :: _, _ :: _, [], _, h | _ :: _, _ :: _, _ :: _, [], h => by simp [GridOK] at h

theorem gridBlocks_prod : ∀ {s t c b : List Nat}, GridOK s t c b → gridBlocks s t c b = prodL (ends (gridDims s t c b))
  | [], [], [], [], _ => rfl
  | s :: ss, t :: ts, c :: cs, b :: bs, h => by
    rw [gridBlocks, gridDims, ends_cons, prodL, ← gridBlocks_prod h.2.2.2]
    simp only [consAll, dimSegs, List.map_map, List.flatMap_map]
    apply List.flatMap_congr
    intro i _
    apply List.map_congr_left
    intro r _
    have : s + t * i + (b - 1) = s + t * i + b - 1 := by
      have := h.2.1
      omega
    simp only [consSeg, toE, Function.comp, this]
  | [], [], [], _ :: _, h | [], [], _ :: _, _, h | [], _ :: _, _, _, h | _ :: _, [], _, _, h
  | _ :: _, _ :: _, [], _, h | _ :: _, _ :: _, _ :: _, [], h => by simp [GridOK] at h

theorem dimSegs_succ (s t c b : Nat) : dimSegs s t (c + 1) b = (s, b) :: (List.range' 1 c).map (fun i => (s + t * i, b)) := by
  rw [dimSegs, List.range_eq_range', List.range'_succ]
  simp

theorem joinFrom_touch (s t : Nat) : ∀ (k m : Nat),
    joinFrom (s, t * m) ((List.range' m k).map (fun i => (s + t * i, t))) = [(s, t * (m + k))]
  | 0, m => rfl
  | k + 1, m => by
    rw [List.range'_succ, List.map_cons, joinFrom, if_pos rfl]
    simp only
    rw [← Nat.mul_succ, joinFrom_touch s t k (m + 1)]
    congr 3
    omega

theorem joinSegs_touch {s t c b : Nat} (hc : 1 ≤ c) (h : c = 1 ∨ t = b) : joinSegs (dimSegs s t c b) = [(s, b * c)] := by
  obtain ⟨k, rfl⟩ : ∃ k, c = k + 1 := ⟨c - 1, by omega⟩
  rw [dimSegs_succ]
  rcases h with h | rfl
  · have : k = 0 := by omega
    subst this
    simp [joinSegs, joinFrom]
  · have e := joinFrom_touch s t k 1
    rw [Nat.mul_one] at e
    rw [joinSegs, e, Nat.add_comm]

theorem isChain_range' {R : Nat → Nat → Prop} : ∀ (k m : Nat), (∀ i, R i (i + 1)) → (List.range' m k).IsChain R
  | 0, _, _ => by simp
  | 1, _, _ => by simp
  | k + 2, m, h => by
    rw [List.range'_succ, List.range'_succ, List.isChain_cons_cons]
    exact ⟨h m, isChain_range' (k + 1) (m + 1) h⟩

theorem dimSegs_parted {s t c b : Nat} (h : t ≠ b) : Parted (dimSegs s t c b) := by
  unfold Parted dimSegs
  rw [List.isChain_map, List.range_eq_range']
  apply isChain_range'
  intro i
  simp only
  rw [Nat.mul_add]
  omega

theorem joinSegs_apart {s t c b : Nat} (h : t ≠ b) : joinSegs (dimSegs s t c b) = dimSegs s t c b :=
  joinSegs_parted (dimSegs_parted h)

theorem units_dim (s t c b : Nat) : (units (dimSegs s t c b)).length = b * c := by
  simp only [units, dimSegs, List.flatMap_map, List.length_flatMap, List.length_map, List.length_range]
  rw [List.map_const', List.length_range, List.sum_replicate_nat, Nat.mul_comm]

/-- The blocks of a regular hyperslab after merging. -/
def gridN (s t c b : List Nat) : List (List (Nat × Nat)) := nrm (gridDims s t c b)

theorem singles_cons (A : List (Nat × Nat)) (R : List (List (Nat × Nat))) :
    Singles (A :: R) = true ↔ A.length = 1 ∧ Singles R = true := by simp [Singles]

theorem solid_iff : ∀ {s t c b : List Nat}, GridOK s t c b → (Singles (gridN s t c b) = true ↔ Solid t c b)
  | [], [], [], [], _ => by simp [gridN, gridDims, nrm, Singles, Solid]
  | s :: ss, t :: ts, c :: cs, b :: bs, h => by
    have ih := solid_iff h.2.2.2
    unfold gridN at ih ⊢
    rw [gridDims, nrm, singles_cons, Solid]
    by_cases hS : Singles (nrm (gridDims ss ts cs bs)) = true
    · rw [if_pos hS, ih]
      refine and_congr_left ?_
      intro _
      by_cases hc : c = 1 ∨ t = b
      · rw [joinSegs_touch h.1 hc]
        simp [hc]
      · rw [joinSegs_apart (fun e => hc (.inr e)), dimSegs_length]
        exact ⟨.inl, fun e => absurd e hc⟩
    · have : ¬ Solid ts cs bs := fun e => hS (ih.mpr e)
      simp [this, hS]
  | [], [], [], _ :: _, h | [], [], _ :: _, _, h | [], _ :: _, _, _, h | _ :: _, [], _, _, h
  | _ :: _, _ :: _, [], _, h | _ :: _, _ :: _, _ :: _, [], h => by simp [GridOK] at h

theorem gridN_ok {s t c b : List Nat} (h : GridOK s t c b) : ∀ A ∈ gridN s t c b, SegsOK A := nrm_ok (gridDims_ok h)

theorem gridN_length {s t c b : List Nat} (h : GridOK s t c b) : (gridN s t c b).length = s.length := by
  rw [gridN, nrm_length, gridDims_length h]

theorem gridN_cons (s t c b : Nat) (ss ts cs bs : List Nat) : gridN (s :: ss) (t :: ts) (c :: cs) (b :: bs) =
    (if Singles (gridN ss ts cs bs) then joinSegs (dimSegs s t c b) else dimSegs s t c b) :: gridN ss ts cs bs := rfl

theorem gridN_even : ∀ {s t c b : List Nat}, GridOK s t c b → ∀ A ∈ gridN s t c b, Even A
  | [], [], [], [], _ => by simp [gridN, gridDims, nrm]
  | s :: ss, t :: ts, c :: cs, b :: bs, h => by
    intro A hA
    rw [gridN_cons, List.mem_cons] at hA
    rcases hA with hA | hA
    · have hd : Even (dimSegs s t c b) := by
        have hb := h.2.1
        by_cases h1 : b = 1
        · left
          intro a ha
          simp only [dimSegs, List.mem_map] at ha
          obtain ⟨_, _, rfl⟩ := ha
          exact h1
        · right
          intro a ha
          simp only [dimSegs, List.mem_map] at ha
          obtain ⟨_, _, rfl⟩ := ha
          show 1 < b
          omega
      by_cases hc : c = 1 ∨ t = b
      · split at hA
        · rw [joinSegs_touch h.1 hc] at hA
          subst hA
          have hp : 1 ≤ b * c := Nat.mul_pos h.2.1 h.1
          by_cases h1 : b * c = 1
          · left; simpa using h1
          · right
            intro a ha
            simp only [List.mem_singleton] at ha
            subst ha
            show 1 < b * c
            omega
        · subst hA; exact hd
      · rw [joinSegs_apart (fun e => hc (.inr e)), ite_self] at hA
        subst hA
        exact hd
    · exact gridN_even h.2.2.2 A hA
  | [], [], [], _ :: _, h | [], [], _ :: _, _, h | [], _ :: _, _, _, h | _ :: _, [], _, _, h
  | _ :: _, _ :: _, [], _, h | _ :: _, _ :: _, _ :: _, [], h => by simp [GridOK] at h

theorem calm_iff : ∀ {s t c b : List Nat}, s ≠ [] → GridOK s t c b → (NM (gridN s t c b) ↔ Calm t c b)
  | [], [], [], [], h, _ => absurd rfl h
  | [s], [t], [c], [b], _, h => by
    rw [gridN_cons]
    have e : gridN [] [] [] [] = [] := rfl
    rw [e, nm_one]
    simp only [Singles, List.all_nil, if_true, Calm]
    rw [joinSegs_parted (parted_joinSegs _)]
    simp
  | s :: s' :: ss, t :: t' :: ts, c :: c' :: cs, b :: b' :: bs, _, h => by
    have ih := calm_iff (by simp) h.2.2.2
    have hsol := solid_iff h.2.2.2
    have hok := gridN_ok h
    have hne : gridN (s' :: ss) (t' :: ts) (c' :: cs) (b' :: bs) ≠ [] := by rw [gridN_cons]; simp
    rw [gridN_cons] at hok ⊢
    rw [nm_cons hne hok, ih, Calm]
    have e : nrm (gridN (s' :: ss) (t' :: ts) (c' :: cs) (b' :: bs)) = gridN (s' :: ss) (t' :: ts) (c' :: cs) (b' :: bs) :=
      nrm_nrm _
    rw [e, and_comm]
    refine and_congr_left ?_
    intro _
    simp only [ne_eq, reduceCtorEq, not_false_eq_true, forall_const]
    refine (imp_congr_left hsol).trans (imp_congr_right ?_)
    intro hS
    rw [if_pos (hsol.mpr hS)]
    have hc1 := h.1
    have hb1 := h.2.1
    by_cases hc : c = 1 ∨ t = b
    · rw [joinSegs_touch h.1 hc]
      simp only [joinSegs, joinFrom, units_one, List.length_map, List.length_range, List.length_singleton]
      constructor
      · intro e
        have h3 : b * 1 ≤ b * c := Nat.mul_le_mul_left b hc1
        have h4 : 1 * c ≤ b * c := Nat.mul_le_mul_right c hb1
        exact ⟨by omega, .inl (by omega)⟩
      · rintro ⟨rfl, h2 | h2⟩
        · subst h2; rfl
        · rcases hc with rfl | hc
          · rfl
          · exact absurd hc h2
    · have ht : t ≠ b := fun e => hc (.inr e)
      rw [joinSegs_apart ht, joinSegs_apart ht, units_dim, dimSegs_length]
      constructor
      · intro e
        refine ⟨?_, .inr ht⟩
        have : b * c = 1 * c := by omega
        exact Nat.eq_of_mul_eq_mul_right hc1 this
      · rintro ⟨rfl, _⟩
        simp
  | [], [], [], _ :: _, _, h | [], [], _ :: _, _, _, h | [], _ :: _, _, _, _, h | _ :: _, [], _, _, _, h
  | _ :: _, _ :: _, [], _, _, h | _ :: _, _ :: _, _ :: _, [], _, h => by simp [GridOK] at h
  | [_], [_], [_], _ :: _ :: _, _, h | [_], [_], _ :: _ :: _, _ :: _, _, h | [_], _ :: _ :: _, _ :: _, _ :: _, _, h
  | _ :: _ :: _, [_], _ :: _, _ :: _, _, h
  | _ :: _ :: _, _ :: _ :: _, [_], _ :: _, _, h | _ :: _ :: _, _ :: _ :: _, _ :: _ :: _, [_], _, h => by simp [GridOK] at h

/-! ### Groups without merged rows -/

/-- The rows of a group are not merged, for products. -/
def SettledN (g : List (List (Nat × Nat))) : Prop := Singles g = true ∨ NM g

theorem settledN_unit {a : Nat × Nat} (ha : a.2 = 1) {g : List (List (Nat × Nat))} (hg : ∀ A ∈ g, SegsOK A) :
    SettledN ([a] :: g) ↔ SettledN g := by
  unfold SettledN
  rw [singles_cons]
  by_cases hne : g = []
  · subst hne
    simp [Singles]
  · have hA : SegsOK [a] := ⟨by simp, by simp [ha], by simp⟩
    rw [nm_cons hne (by
      intro B hB
      rcases List.mem_cons.mp hB with rfl | hB
      · exact hA
      · exact hg B hB)]
    have : (joinSegs [a]).length = (units [a]).length := by simp [joinSegs, joinFrom, units_one, ha]
    simp [this]

theorem settledN_wide {a : Nat × Nat} (ha : 1 < a.2) {R : List (List (Nat × Nat))} (hR : ∀ A ∈ R, SegsOK A)
    (hn : nrm R = R) (hs : Singles R ≠ true) : SettledN ([a] :: R) ↔ NM R := by
  unfold SettledN
  rw [singles_cons]
  have hne : R ≠ [] := by
    rintro rfl
    exact hs rfl
  have hA : SegsOK [a] := ⟨by simp, by simp; omega, by simp⟩
  rw [nm_cons hne (by
    intro B hB
    rcases List.mem_cons.mp hB with rfl | hB
    · exact hA
    · exact hR B hB), hn]
  simp [hs]

theorem grN_ok : ∀ {As : List (List (Nat × Nat))}, (∀ A ∈ As, SegsOK A) → ∀ g ∈ grN As, g.length = As.length ∧ ∀ A ∈ g, SegsOK A
  | [], _ => by simp [grN]
  | A :: R, h => by
    intro g hg
    have hs : ∀ a ∈ A, SegsOK [a] := fun a ha => ⟨by simp, by simpa using (h A (by simp)).pos a ha, by simp⟩
    have hR : ∀ B ∈ R, SegsOK B := fun B hB => h B (by simp [hB])
    rw [grN] at hg
    split at hg
    · simp only [List.mem_flatMap, List.mem_map] at hg
      obtain ⟨a, ha, g', hg', rfl⟩ := hg
      have ih := grN_ok hR g' hg'
      refine ⟨by simp [ih.1], ?_⟩
      intro B hB
      rcases List.mem_cons.mp hB with rfl | hB
      · exact hs a ha
      · exact ih.2 B hB
    · simp only [List.mem_map] at hg
      obtain ⟨a, ha, rfl⟩ := hg
      refine ⟨by simp, ?_⟩
      intro B hB
      rcases List.mem_cons.mp hB with rfl | hB
      · exact hs a ha
      · exact hR B hB

theorem grN_ne : ∀ {As : List (List (Nat × Nat))}, (∀ A ∈ As, SegsOK A) → grN As ≠ []
  | [], _ => by simp [grN]
  | A :: R, h => by
    have hA := (h A (by simp)).ne
    have ih := grN_ne (As := R) (fun B hB => h B (by simp [hB]))
    obtain ⟨a, A', rfl⟩ := List.exists_cons_of_ne_nil hA
    rw [grN]
    split
    · rw [List.flatMap_cons]
      simp [ih]
    · simp

theorem grN_singles : ∀ {As : List (List (Nat × Nat))}, Singles As = true → ∀ g ∈ grN As, Singles g = true
  | [], _ => by simp [grN, Singles]
  | A :: R, h => by
    intro g hg
    rw [singles_cons] at h
    rw [grN] at hg
    split at hg
    · simp only [List.mem_flatMap, List.mem_map] at hg
      obtain ⟨a, _, g', hg', rfl⟩ := hg
      rw [singles_cons]
      exact ⟨rfl, grN_singles h.2 g' hg'⟩
    · simp only [List.mem_map] at hg
      obtain ⟨a, _, rfl⟩ := hg
      rw [singles_cons]
      exact ⟨rfl, h.2⟩

/-- Whatever the first dimension, the groups have one block each if the following dimensions form one box. -/
theorem grN_solid {A : List (Nat × Nat)} {R : List (List (Nat × Nat))} (h : Singles R = true) :
    ∀ g ∈ grN (A :: R), Singles g = true := by
  intro g hg
  rw [grN] at hg
  split at hg
  · simp only [List.mem_flatMap, List.mem_map] at hg
    obtain ⟨a, _, g', hg', rfl⟩ := hg
    rw [singles_cons]
    exact ⟨rfl, grN_singles h g' hg'⟩
  · simp only [List.mem_map] at hg
    obtain ⟨a, _, rfl⟩ := hg
    rw [singles_cons]
    exact ⟨rfl, h⟩

theorem unitSegs_dim {s t c b : Nat} (hc : 1 ≤ c) : unitSegs (dimSegs s t c b) = true ↔ b = 1 := by
  unfold unitSegs dimSegs
  rw [List.all_eq_true]
  simp only [List.mem_map, List.mem_range, decide_eq_true_eq, forall_exists_index, and_imp, forall_apply_eq_imp_iff₂]
  exact ⟨fun h => h 0 hc, fun h _ _ => h⟩

theorem mem_dimSegs {s t c b : Nat} {a : Nat × Nat} (h : a ∈ dimSegs s t c b) : a.2 = b := by
  simp only [dimSegs, List.mem_map] at h
  obtain ⟨_, _, rfl⟩ := h
  rfl

theorem quiet_iff : ∀ {s t c b : List Nat}, GridOK s t c b → ((∀ g ∈ grN (gridN s t c b), SettledN g) ↔ Quiet t c b)
  | [], [], [], [], _ => by simp [gridN, gridDims, nrm, grN, SettledN, Singles, Quiet]
  | s :: ss, t :: ts, c :: cs, b :: bs, h => by
    have ih := quiet_iff h.2.2.2
    have hsol := solid_iff h.2.2.2
    have hok := gridN_ok h.2.2.2
    rw [gridN_cons, Quiet]
    by_cases hS : Singles (gridN ss ts cs bs) = true
    · refine ⟨fun _ => .inl (hsol.mp hS), fun _ g hg => .inl (grN_solid hS g hg)⟩
    · have hnS : ¬ Solid ts cs bs := fun e => hS (hsol.mpr e)
      rw [if_neg hS, grN]
      obtain ⟨a, A', e⟩ := List.exists_cons_of_ne_nil (dimSegs_ok h.1 h.2.1 h.2.2.1 (s := s)).ne
      by_cases hb : b = 1
      · rw [if_pos ((unitSegs_dim h.1).mpr hb)]
        simp only [hnS, hb, ne_eq, not_true_eq_false, false_and, or_false, false_or, true_and]
        rw [← ih]
        constructor
        · intro hg g' hg'
          have hu : a.2 = 1 := by rw [mem_dimSegs (s := s) (t := t) (c := c) (b := b) (by rw [e]; simp), hb]
          refine (settledN_unit hu (grN_ok hok g' hg').2).mp (hg _ ?_)
          simp only [List.mem_flatMap, List.mem_map]
          exact ⟨a, by rw [← hb, e]; simp, g', hg', rfl⟩
        · intro hg g hg'
          simp only [List.mem_flatMap, List.mem_map] at hg'
          obtain ⟨x, hx, g', hg', rfl⟩ := hg'
          have hu : x.2 = 1 := mem_dimSegs hx
          exact (settledN_unit hu (grN_ok hok g' hg').2).mpr (hg g' hg')
      · rw [if_neg (fun e => hb ((unitSegs_dim h.1).mp e))]
        simp only [hnS, hb, ne_eq, not_false_eq_true, false_and, false_or, true_and]
        have hs : ss ≠ [] := by
          rintro rfl
          apply hS
          have := gridN_length h.2.2.2
          rw [List.length_nil] at this
          rw [List.length_eq_zero_iff.mp this]
          rfl
        rw [← calm_iff hs h.2.2.2]
        have hw : ∀ x ∈ dimSegs s t c b, 1 < x.2 := by
          intro x hx
          rw [mem_dimSegs hx]
          have := h.2.1
          omega
        constructor
        · intro hg
          have ha : a ∈ dimSegs s t c b := by rw [e]; simp
          exact (settledN_wide (hw a ha) hok (nrm_nrm _) hS).mp (hg _ (List.mem_map.mpr ⟨a, ha, rfl⟩))
        · intro hn g hg
          obtain ⟨x, hx, rfl⟩ := List.mem_map.mp hg
          exact (settledN_wide (hw x hx) hok (nrm_nrm _) hS).mpr hn
  | [], [], [], _ :: _, h | [], [], _ :: _, _, h | [], _ :: _, _, _, h | _ :: _, [], _, _, h
  | _ :: _, _ :: _, [], _, h | _ :: _, _ :: _, _ :: _, [], h => by simp [GridOK] at h

theorem dropLast_append' {α : Type} (l : List α) {r : List α} (h : r ≠ []) : (l ++ r).dropLast = l ++ r.dropLast := by
  rw [List.dropLast_append, if_neg (by simp [h])]

theorem dimSegs_last (s t c b : Nat) : dimSegs s t (c + 1) b = dimSegs s t c b ++ [(s + t * c, b)] := by
  simp [dimSegs, List.range_succ]

theorem safe_iff : ∀ {s t c b : List Nat}, GridOK s t c b → ((∀ g ∈ (grN (gridN s t c b)).dropLast, SettledN g) ↔ Safe t c b)
  | [], [], [], [], _ => by simp [gridN, gridDims, nrm, grN, Safe]
  | s :: ss, t :: ts, c :: cs, b :: bs, h => by
    have ih := safe_iff h.2.2.2
    have ihq := quiet_iff h.2.2.2
    have hsol := solid_iff h.2.2.2
    have hok := gridN_ok h.2.2.2
    rw [gridN_cons, Safe]
    by_cases hS : Singles (gridN ss ts cs bs) = true
    · refine ⟨fun _ => .inl (hsol.mp hS), fun _ g hg => .inl (grN_solid hS g (List.mem_of_mem_dropLast hg))⟩
    · have hnS : ¬ Solid ts cs bs := fun e => hS (hsol.mpr e)
      rw [if_neg hS, grN]
      obtain ⟨k, hk⟩ : ∃ k, c = k + 1 := ⟨c - 1, by have := h.1; omega⟩
      have hne := grN_ne hok
      by_cases hb : b = 1
      · rw [if_pos ((unitSegs_dim h.1).mpr hb)]
        simp only [hnS, hb, ne_eq, not_true_eq_false, false_and, or_false, false_or, true_and]
        have hst : ∀ (x : Nat) g', g' ∈ grN (gridN ss ts cs bs) → (SettledN ([(x, 1)] :: g') ↔ SettledN g') :=
          fun x g' hg' => settledN_unit rfl (grN_ok hok g' hg').2
        rw [hk, dimSegs_last, List.flatMap_append, List.flatMap_cons, List.flatMap_nil, List.append_nil,
          dropLast_append' _ (by simpa using hne), ← List.map_dropLast]
        have hlast : (∀ g ∈ (grN (gridN ss ts cs bs)).dropLast.map ([(s + t * k, 1)] :: ·), SettledN g) ↔
            ∀ g ∈ (grN (gridN ss ts cs bs)).dropLast, SettledN g := by
          simp only [List.mem_map, forall_exists_index, and_imp, forall_apply_eq_imp_iff₂]
          exact forall₂_congr (fun g hg => hst _ g (List.mem_of_mem_dropLast hg))
        have hall : (∀ g ∈ (dimSegs s t k 1).flatMap (fun b => (grN (gridN ss ts cs bs)).map ([b] :: ·)), SettledN g) ↔
            (k = 0 ∨ ∀ g ∈ grN (gridN ss ts cs bs), SettledN g) := by
          constructor
          · intro hg
            by_cases h0 : k = 0
            · exact .inl h0
            right
            intro g' hg'
            refine (hst s g' hg').mp (hg _ ?_)
            simp only [List.mem_flatMap, List.mem_map]
            exact ⟨(s, 1), by simp only [dimSegs, List.mem_map, List.mem_range]; exact ⟨0, by omega, rfl⟩, g', hg', rfl⟩
          · intro hg g hg'
            simp only [List.mem_flatMap, List.mem_map] at hg'
            obtain ⟨x, hx, g', hg', rfl⟩ := hg'
            rcases hg with rfl | hg
            · simp [dimSegs] at hx
            · have hu : x.2 = 1 := mem_dimSegs hx
              exact (settledN_unit hu (grN_ok hok g' hg').2).mpr (hg g' hg')
        have hsplit : (∀ g ∈ (dimSegs s t k 1).flatMap (fun b => (grN (gridN ss ts cs bs)).map ([b] :: ·)) ++
            (grN (gridN ss ts cs bs)).dropLast.map ([(s + t * k, 1)] :: ·), SettledN g) ↔
            (k = 0 ∨ Quiet ts cs bs) ∧ Safe ts cs bs := by
          rw [← ih, ← ihq, ← hlast, ← hall]
          constructor
          · intro h'
            exact ⟨fun g hg => h' g (List.mem_append_left _ hg), fun g hg => h' g (List.mem_append_right _ hg)⟩
          · rintro ⟨h1, h2⟩ g hg
            rcases List.mem_append.mp hg with hg | hg
            · exact h1 g hg
            · exact h2 g hg
        rw [hsplit]
        have hqs : Quiet ts cs bs → Safe ts cs bs := by
          rw [← ih, ← ihq]
          intro h' g hg
          exact h' g (List.mem_of_mem_dropLast hg)
        constructor
        · rintro ⟨h0 | h0, h1⟩
          · exact .inl ⟨by omega, h1⟩
          · exact .inr h0
        · rintro (⟨h0, h1⟩ | h1)
          · exact ⟨.inl (by omega), h1⟩
          · exact ⟨.inr h1, hqs h1⟩
      · rw [if_neg (fun e => hb ((unitSegs_dim h.1).mp e))]
        simp only [hnS, hb, ne_eq, not_false_eq_true, false_and, false_or, true_and]
        have hs : ss ≠ [] := by
          rintro rfl
          apply hS
          have := gridN_length h.2.2.2
          rw [List.length_nil] at this
          rw [List.length_eq_zero_iff.mp this]
          rfl
        rw [← calm_iff hs h.2.2.2]
        have hw : ∀ x : Nat, 1 < (x, b).2 := by
          intro x
          have := h.2.1
          show 1 < b
          omega
        rw [hk, dimSegs_last, List.map_append, dropLast_append' _ (by simp)]
        simp only [List.map_cons, List.map_nil, List.dropLast_singleton, List.append_nil, List.mem_map]
        constructor
        · intro hg
          by_cases h0 : k = 0
          · exact .inl (by omega)
          right
          refine (settledN_wide (hw s) hok (nrm_nrm _) hS).mp (hg _ ⟨(s, b), ?_, rfl⟩)
          simp only [dimSegs, List.mem_map, List.mem_range]
          exact ⟨0, by omega, rfl⟩
        · rintro hn g ⟨x, hx, rfl⟩
          rcases hn with hn | hn
          · have : k = 0 := by omega
            subst this
            simp [dimSegs] at hx
          · refine (settledN_wide ?_ hok (nrm_nrm _) hS).mpr hn
            rw [mem_dimSegs hx]
            exact hw 0
  | [], [], [], _ :: _, h | [], [], _ :: _, _, h | [], _ :: _, _, _, h | _ :: _, [], _, _, h
  | _ :: _, _ :: _, [], _, h | _ :: _, _ :: _, _ :: _, [], h => by simp [GridOK] at h

/-! ### The merged list -/

theorem mergeAllL_ends {As : List (List (Nat × Nat))} (h : ∀ A ∈ As, SegsOK A) :
    mergeAllL true As.length (prodL (ends As)) = prodL (ends (nrm As)) := by
  obtain ⟨a1, a2, _, _⟩ := mergeAllL_true As.length (prodL (ends As)) (prodL_endOK h)
  refine map_toCount_inj (n := As.length) a2 (by rw [← nrm_length As]; exact prodL_endOK (nrm_ok h)) ?_
  rw [a1, prodL_ends h, prodL_ends (nrm_ok h), mergeAllL_prod h]

theorem prodL_ends_sorted {As : List (List (Nat × Nat))} (h : ∀ A ∈ As, SegsOK A) :
    (prodL (ends As)).Pairwise (fun a b => RowLt a.1 b.1) := by
  induction As with
  | nil => simp [ends, prodL]
  | cons A R ih =>
    rw [ends_cons, prodL]
    refine consAll_sorted ?_ (ih (fun B hB => h B (by simp [hB])))
    rw [List.pairwise_map]
    exact (h A (by simp)).starts

theorem sortL_ends {srt : List (List Nat) → List Nat} (hs : IsSort srt) {As : List (List (Nat × Nat))}
    (h : ∀ A ∈ As, SegsOK A) : sortL srt (prodL (ends As)) = prodL (ends As) :=
  perm_eq (R := fun a b => RowLt a.1 b.1) (sortL_perm hs _) (sortL_sorted hs _) (prodL_ends_sorted h)

theorem mergedL_grid {srt : List (List Nat) → List Nat} (hs : IsSort srt) {s t c b : List Nat} (h : GridOK s t c b) :
    mergedL srt s.length (gridBlocks s t c b) = prodL (ends (gridN s t c b)) := by
  unfold mergedL
  have e := mergeAllL_ends (gridDims_ok h)
  rw [gridDims_length h] at e
  rw [gridBlocks_prod h, e, sortL_ends hs (nrm_ok (gridDims_ok h))]
  have e2 := mergeAllL_ends (nrm_ok (gridDims_ok h))
  rw [nrm_length, gridDims_length h, nrm_nrm] at e2
  exact e2

theorem groups_grid {srt : List (List Nat) → List Nat} (hs : IsSort srt) {s t c b : List Nat} (h : GridOK s t c b) :
    groupRows (mergedL srt s.length (gridBlocks s t c b)) = (grN (gridN s t c b)).map (fun g => prodL (ends g)) := by
  rw [mergedL_grid hs h, groupRows_prod (fun A hA => ⟨gridN_ok h A hA, gridN_even h A hA⟩)]

theorem settledAll_grid {srt : List (List Nat) → List Nat} (hs : IsSort srt) {s t c b : List Nat} (hn : 0 < s.length)
    (h : GridOK s t c b) : SettledAll srt s.length (gridBlocks s t c b) ↔ Safe t c b := by
  unfold SettledAll
  rw [groups_grid hs h, ← List.map_dropLast, ← safe_iff h]
  simp only [List.mem_map, forall_exists_index, and_imp, forall_apply_eq_imp_iff₂]
  refine forall₂_congr ?_
  intro g hg
  have hg := grN_ok (gridN_ok h) g (List.mem_of_mem_dropLast hg)
  have hl : g.length = s.length := by rw [hg.1, gridN_length h]
  have hne : g ≠ [] := by
    rintro rfl
    simp at hl
    omega
  have := settled_prod hs hne hg.2
  rw [hl] at this
  exact this

end Verif
