import Verif.Lemmas.Clobber

/-
Regular hyperslabs that are not normalised correctly: a selected cell is in none of the blocks.
-/

namespace Verif
open Spec

/-- All segments have the same length. -/
def Const (A : List (Nat × Nat)) : Prop := ∃ w, ∀ a ∈ A, a.2 = w

theorem gridN_dims : ∀ {s t c b : List Nat}, GridOK s t c b → ∀ A ∈ gridN s t c b, Const A ∧ Unif A
  | [], [], [], [], _ => by simp [gridN, gridDims, nrm]
  | s :: ss, t :: ts, c :: cs, b :: bs, h => by
    intro A hA
    rw [gridN_cons, List.mem_cons] at hA
    rcases hA with hA | hA
    · have hu : Unif (dimSegs s t c b) := by
        by_cases ht : t = b
        · obtain ⟨k, rfl⟩ : ∃ k, c = k + 1 := ⟨c - 1, by have := h.1; omega⟩
          cases k with
          | zero => left; simp [dimSegs, joinSegs, joinFrom]
          | succ k =>
            right
            rw [dimSegs_succ, List.range'_succ, List.map_cons]
            exact ⟨_, _, _, rfl, by simp [ht]⟩
        · exact .inl (joinSegs_apart ht)
      split at hA
      · by_cases hc : c = 1 ∨ t = b
        · rw [joinSegs_touch h.1 hc] at hA
          subst hA
          exact ⟨⟨b * c, by simp⟩, .inl rfl⟩
        · rw [joinSegs_apart (fun e => hc (.inr e))] at hA
          subst hA
          exact ⟨⟨b, fun a ha => mem_dimSegs ha⟩, hu⟩
      · subst hA
        exact ⟨⟨b, fun a ha => mem_dimSegs ha⟩, hu⟩
    · exact gridN_dims h.2.2.2 A hA
  | [], [], [], _ :: _, h | [], [], _ :: _, _, h | [], _ :: _, _, _, h | _ :: _, [], _, _, h
  | _ :: _, _ :: _, [], _, h | _ :: _, _ :: _, _ :: _, [], h => by simp [GridOK] at h

/-- Dimensions of a product, as after merging. -/
structure Dims (As : List (List (Nat × Nat))) : Prop where
  ok : ∀ A ∈ As, SegsOK A
  cst : ∀ A ∈ As, Const A
  unif : ∀ A ∈ As, Unif A
  nrm : nrm As = As

theorem Dims.tail {A : List (Nat × Nat)} {R : List (List (Nat × Nat))} (h : Dims (A :: R)) : Dims R := by
  refine ⟨fun B hB => h.ok B (by simp [hB]), fun B hB => h.cst B (by simp [hB]), fun B hB => h.unif B (by simp [hB]), ?_⟩
  have := h.nrm
  rw [Verif.nrm, List.cons.injEq] at this
  exact this.2

theorem Dims.cons {a : Nat × Nat} (ha : 1 ≤ a.2) {R : List (List (Nat × Nat))} (h : Dims R) : Dims ([a] :: R) := by
  refine ⟨?_, ?_, ?_, ?_⟩
  · intro B hB
    rcases List.mem_cons.mp hB with rfl | hB
    · exact ⟨by simp, by simpa using ha, by simp⟩
    · exact h.ok B hB
  · intro B hB
    rcases List.mem_cons.mp hB with rfl | hB
    · exact ⟨a.2, by simp⟩
    · exact h.cst B hB
  · intro B hB
    rcases List.mem_cons.mp hB with rfl | hB
    · exact .inl rfl
    · exact h.unif B hB
  · rw [Verif.nrm, h.nrm]
    simp [joinSegs, joinFrom]

theorem gridN_Dims {s t c b : List Nat} (h : GridOK s t c b) : Dims (gridN s t c b) :=
  ⟨gridN_ok h, fun A hA => (gridN_dims h A hA).1, fun A hA => (gridN_dims h A hA).2, nrm_nrm _⟩

theorem grN_dims : ∀ {As : List (List (Nat × Nat))}, Dims As → ∀ g ∈ grN As, Dims g
  | [], h => by
    intro g hg
    simp only [grN, List.mem_singleton] at hg
    subst hg
    exact h
  | A :: R, h => by
    intro g hg
    have hA := h.ok A (by simp)
    rw [grN] at hg
    split at hg
    · simp only [List.mem_flatMap, List.mem_map] at hg
      obtain ⟨a, ha, g', hg', rfl⟩ := hg
      exact (grN_dims h.tail g' hg').cons (hA.pos a ha)
    · simp only [List.mem_map] at hg
      obtain ⟨a, ha, rfl⟩ := hg
      exact h.tail.cons (hA.pos a ha)

theorem unif_units {A : List (Nat × Nat)} (h1 : SegsOK A) (h2 : Const A) (h3 : Unif A) : Unif (units A) := by
  obtain ⟨w, hw⟩ := h2
  by_cases h : w = 1
  · have e : units A = A := by
      unfold units
      have : A.flatMap (fun a => (List.range a.2).map (fun i => (a.1 + i, 1))) = A.flatMap (fun a => [a]) := by
        apply List.flatMap_congr
        intro a ha
        have := hw a ha
        obtain ⟨a1, a2⟩ := a
        simp only at this
        subst this
        subst h
        simp
      rw [this]
      simp
    rw [e]
    exact h3
  · obtain ⟨a, A, rfl⟩ := List.exists_cons_of_ne_nil h1.ne
    have ha := h1.pos a (by simp)
    have haw := hw a (by simp)
    right
    rw [units_head ha]
    obtain ⟨k, hk⟩ : ∃ k, a.2 - 1 = k + 1 := ⟨a.2 - 2, by omega⟩
    rw [hk, List.range'_succ]
    exact ⟨_, _, _, rfl, rfl⟩

theorem Dims.unitize : ∀ {g : List (List (Nat × Nat))}, Dims g → ∀ A ∈ unitize g, SegsOK A ∧ Unif A
  | [], _ => by simp [Verif.unitize]
  | [A], h => by
    intro B hB
    simp only [Verif.unitize, List.mem_singleton] at hB
    subst hB
    exact ⟨h.ok B (by simp), h.unif B (by simp)⟩
  | A :: B :: R, h => by
    intro C hC
    rw [Verif.unitize, List.mem_cons] at hC
    rcases hC with rfl | hC
    · exact ⟨units_ok (h.ok A (by simp)), unif_units (h.ok A (by simp)) (h.cst A (by simp)) (h.unif A (by simp))⟩
    · exact h.tail.unitize C hC

/-- Rows of the groups: the same number in all of them. -/
theorem grN_rows : ∀ {As : List (List (Nat × Nat))}, Dims As → ∃ N, ∀ g ∈ grN As, (prodL (unitize g)).length = N
  | [], _ => ⟨1, by simp [grN, unitize, prodL]⟩
  | [A], _ => by
    refine ⟨1, ?_⟩
    intro g hg
    rw [grN] at hg
    split at hg
    · simp only [grN, List.map_cons, List.map_nil, List.mem_flatMap, List.mem_singleton] at hg
      obtain ⟨a, _, rfl⟩ := hg
      simp [unitize, prodL, consAll]
    · simp only [List.mem_map] at hg
      obtain ⟨a, _, rfl⟩ := hg
      simp [unitize, prodL, consAll]
  | A :: B :: R, h => by
    obtain ⟨N, hN⟩ := grN_rows h.tail
    obtain ⟨w, hw⟩ := h.cst A (by simp)
    have hcount : ∀ (a : Nat × Nat) (g' : List (List (Nat × Nat))), g' ≠ [] → a ∈ A →
        (prodL (unitize ([a] :: g'))).length = w * (prodL (unitize g')).length := by
      intro a g' hg' ha
      rw [unitize_cons _ hg', prodL, consAll_length, units_one, List.length_map, List.length_range, hw a ha]
    rw [grN]
    split
    · refine ⟨w * N, ?_⟩
      intro g hg
      simp only [List.mem_flatMap, List.mem_map] at hg
      obtain ⟨a, ha, g', hg', rfl⟩ := hg
      have hl := (grN_ok h.tail.ok g' hg').1
      rw [hcount a g' (by rintro rfl; simp at hl) ha, hN g' hg']
    · refine ⟨w * (prodL (unitize (B :: R))).length, ?_⟩
      intro g hg
      simp only [List.mem_map] at hg
      obtain ⟨a, ha, rfl⟩ := hg
      exact hcount a _ (by simp) ha

/-- Rows are merged in all groups or in none. -/
theorem grN_same : ∀ {As : List (List (Nat × Nat))}, Dims As → ∀ g ∈ grN As, SettledN g → ∀ g' ∈ grN As, SettledN g'
  | [], _ => by
    intro g hg hs g' hg'
    simp only [grN, List.mem_singleton] at hg hg'
    subst hg hg'
    exact hs
  | A :: R, h => by
    intro g hg hs g' hg'
    by_cases hS : Singles R = true
    · exact .inl (grN_solid hS g' hg')
    have hA := h.ok A (by simp)
    obtain ⟨w, hw⟩ := h.cst A (by simp)
    rw [grN] at hg hg'
    by_cases hu : unitSegs A = true
    · rw [if_pos hu] at hg hg'
      simp only [List.mem_flatMap, List.mem_map] at hg hg'
      obtain ⟨a, ha, q, hq, rfl⟩ := hg
      obtain ⟨a', ha', q', hq', rfl⟩ := hg'
      have h1 : ∀ a ∈ A, a.2 = 1 := fun a ha => by simpa using List.all_eq_true.mp hu a ha
      rw [settledN_unit (h1 a ha) (grN_ok h.tail.ok q hq).2] at hs
      rw [settledN_unit (h1 a' ha') (grN_ok h.tail.ok q' hq').2]
      exact grN_same h.tail q hq hs q' hq'
    · rw [if_neg hu] at hg hg'
      simp only [List.mem_map] at hg hg'
      obtain ⟨a, ha, rfl⟩ := hg
      obtain ⟨a', ha', rfl⟩ := hg'
      have h1 : ∀ a ∈ A, 1 < a.2 := by
        intro a ha
        have h2 := hA.pos a ha
        have h3 : a.2 ≠ 1 := by
          intro e
          apply hu
          unfold unitSegs
          rw [List.all_eq_true]
          intro x hx
          simp only [decide_eq_true_eq]
          rw [hw x hx, ← hw a ha, e]
        omega
      rw [settledN_wide (h1 a ha) h.tail.ok h.tail.nrm hS] at hs
      rw [settledN_wide (h1 a' ha') h.tail.ok h.tail.nrm hS]
      exact hs

theorem solid_safe : ∀ {t c b : List Nat}, Solid t c b → Safe t c b
  | [], _, _, _ => trivial
  | _ :: _, [], _, _ => trivial
  | _ :: _, _ :: _, [], _ => trivial
  | _ :: _, _ :: _, _ :: _, h => .inl h.2

theorem allOnes_solid : ∀ {s t c b : List Nat}, GridOK s t c b → allOnes c = true ∨ (allOnes t = true ∧ allOnes b = true) → Solid t c b
  | [], [], [], [], _, _ => trivial
  | s :: ss, t :: ts, c :: cs, b :: bs, h, ha => by
    simp only [allOnes, List.all_cons, Bool.and_eq_true, decide_eq_true_eq] at ha
    refine ⟨?_, allOnes_solid h.2.2.2 ?_⟩
    · rcases ha with ha | ha
      · exact .inl ha.1
      · exact .inr (by rw [ha.1.1, ha.2.1])
    · rcases ha with ha | ha
      · exact .inl ha.2
      · exact .inr ⟨ha.1.2, ha.2.2⟩
  | [], [], [], _ :: _, h, _ | [], [], _ :: _, _, h, _ | [], _ :: _, _, _, h, _ | _ :: _, [], _, _, h, _
  | _ :: _, _ :: _, [], _, h, _ | _ :: _, _ :: _, _ :: _, [], h, _ => by simp [GridOK] at h

theorem gridDims_single : ∀ {s t c b : List Nat}, GridOK s t c b → Singles (gridDims s t c b) = true → allOnes c = true
  | [], [], [], [], _, _ => rfl
  | s :: ss, t :: ts, c :: cs, b :: bs, h, hs => by
    rw [gridDims, singles_cons, dimSegs_length] at hs
    simp only [allOnes, List.all_cons, Bool.and_eq_true, decide_eq_true_eq]
    exact ⟨hs.1, gridDims_single h.2.2.2 hs.2⟩
  | [], [], [], _ :: _, h, _ | [], [], _ :: _, _, h, _ | [], _ :: _, _, _, h, _ | _ :: _, [], _, _, h, _
  | _ :: _, _ :: _, [], _, h, _ | _ :: _, _ :: _, _ :: _, [], h, _ => by simp [GridOK] at h

/-- A regular hyperslab that is not `Safe`: a selected cell is in none of the blocks. -/
theorem grid_lost {srt : List (List Nat) → List Nat} (hs : IsSort srt) {s t c b : List Nat} (hn : 0 < s.length)
    (h : GridOK s t c b) (hu : ¬ Safe t c b) :
    ∃ sel, selections srt s.length (.hyper (some ⟨s, t, c, b⟩) (gridBlocks s t c b)) = .ok sel ∧
      sel.destroy s.length = .ok () ∧ ∃ x, InGrid s t c b x ∧ timesIn sel.blocks x = 0 := by
  have hns : ¬ Solid t c b := fun e => hu (solid_safe e)
  have hc1 : ¬ allOnes c = true := fun e => hns (allOnes_solid h (.inl e))
  have hsc : ¬ ((allOnes t && allOnes b) || allOnes c) = true := by
    rw [Bool.or_eq_true, Bool.and_eq_true]
    rintro (e | e)
    · exact hns (allOnes_solid h (.inr e))
    · exact hc1 e
  obtain ⟨hb, hp, hh, hx⟩ := grid_blocks h
  have hE : ∀ r ∈ gridBlocks s t c b, EndOK s.length r := fun r hr => endOK_of_block (hb r hr)
  obtain ⟨o, d⟩ := ord_of_stepped hE hp
  have hlen : (gridBlocks s t c b).length ≠ 1 := by
    intro e
    rw [gridBlocks_prod h, ends_length] at e
    exact hc1 (gridDims_single h ((singles_iff (gridDims_ok h)).mpr e))
  have hne : gridBlocks s t c b ≠ [] := hx
  have hlen0 : (gridBlocks s t c b).length ≠ 0 := fun e => hne (List.length_eq_zero_iff.mp e)
  -- the groups
  have hD := gridN_Dims h
  obtain ⟨G, hG⟩ : ∃ G, G = grN (gridN s t c b) := ⟨_, rfl⟩
  have hbad : ∃ g ∈ G.dropLast, ¬ SettledN g := by
    rw [← safe_iff h] at hu
    rw [hG]
    exact Classical.byContradiction (fun hcon => hu (fun g hg => Classical.byContradiction (fun hns => hcon ⟨g, hg, hns⟩)))
  have hall : ∀ g ∈ G, ¬ SettledN g := by
    obtain ⟨g0, hg0, hs0⟩ := hbad
    intro g hg hsg
    rw [hG] at hg hg0
    exact hs0 (grN_same hD g hg hsg g0 (List.mem_of_mem_dropLast hg0))
  obtain ⟨g1, g2, gs, hGe⟩ : ∃ g1 g2 gs, G = g1 :: g2 :: gs := by
    obtain ⟨g0, hg0, _⟩ := hbad
    match G, hg0 with
    | g1 :: g2 :: gs, _ => exact ⟨g1, g2, gs, rfl⟩
  have hgr : groupRows (mergedL srt s.length (gridBlocks s t c b)) =
      prodL (ends g1) :: prodL (ends g2) :: gs.map (fun g => prodL (ends g)) := by
    rw [groups_grid hs h, ← hG, hGe]
    rfl
  have hm1 : g1 ∈ grN (gridN s t c b) := by rw [← hG, hGe]; simp
  have hm2 : g2 ∈ grN (gridN s t c b) := by rw [← hG, hGe]; simp
  have hu1 := hall g1 (by rw [hGe]; simp)
  have hu2 := hall g2 (by rw [hGe]; simp)
  have hd1 := grN_dims hD g1 hm1
  have hd2 := grN_dims hD g2 hm2
  have hl1 : g1.length = s.length := by rw [(grN_ok hD.ok g1 hm1).1, gridN_length h]
  have hl2 : g2.length = s.length := by rw [(grN_ok hD.ok g2 hm2).1, gridN_length h]
  have hne1 : g1 ≠ [] := by rintro rfl; simp at hl1; omega
  have hne2 : g2 ≠ [] := by rintro rfl; simp at hl2; omega
  have hs1 : (prodL g1).length ≠ 1 := fun e => hu1 (.inl ((singles_iff hd1.ok).mpr e))
  have hs2 : (prodL g2).length ≠ 1 := fun e => hu2 (.inl ((singles_iff hd2.ok).mpr e))
  -- the merged list
  obtain ⟨a, m2, e1, e2, v, p, _⟩ := merged_arr hs (n := s.length) hne
  obtain ⟨k1, k2, _⟩ := mergedL_ok hs hE
  obtain ⟨om, hid⟩ := mergedL_ord hs hE o
  have hgok := groups_ok k1
  have hap := groupRows_apart om
  have hnd : (cellsL ((mergedL srt s.length (gridBlocks s t c b)).map toCount)).Nodup := k2.nodup_iff.mpr d
  have hnd' := hnd
  rw [← groupRows_flatten (mergedL srt s.length (gridBlocks s t c b))] at hnd'
  have hgm : prodL (ends g1) ∈ groupRows (mergedL srt s.length (gridBlocks s t c b)) := by rw [hgr]; simp
  have hnd1 := nodup_group hgm hnd'
  have hfl : FirstLeast (prodL (ends g1)) :=
    firstLeast_of hn (hgok _ hgm).2 (prodL_ends_sorted hd1.ok) hnd1
  rw [hgr] at hgok hap
  have hsort := sortL_rows hs hne1 hd1.ok
  have hout := outL_prod hs hne1 hd1.ok hs1
  rw [hl1] at hout
  obtain ⟨N, hN⟩ := grN_rows hD
  obtain ⟨st, e3, f3, x, hxc, hxo⟩ := fillGroups_lost hs hn hgok hap hnd1 (by rw [ends_length]; exact hs1)
    (by rw [ends_length]; exact hs2)
    (by
      rw [hsort, ← hl1, ← unitize_length g1]
      exact lm_prod hd1.unitize (fun e => hu1 (.inr e)))
    (by
      rw [hout]
      have hpos := List.length_pos_of_ne_nil (prodL_ne (nrm_ok (unitize_ok hd1.ok)))
      have hne' : (prodL (nrm (unitize g1))).length ≠ 1 := by
        intro e
        have := (singles_iff (nrm_ok (unitize_ok hd1.ok))).mpr e
        rw [singles_nrm_unitize hd1.ok, hd1.nrm] at this
        exact hu1 (.inl this)
      omega)
    (by rw [(rows_prod hne1 hd1.ok).length_eq, (rows_prod hne2 hd2.ok).length_eq, hN g1 hm1, hN g2 hm2])
  have hm0 : m2.1.ptr 0 = 0 := by
    apply p
    rw [hid]
    cases (mergeAllL true s.length (gridBlocks s t c b)).length <;> simp [List.range_succ_eq_map]
  refine ⟨st, ?_, ?_, x, ?_, ?_⟩
  · simp only [selections, fromHyper, Option.bind_some, shortcut]
    rw [if_neg hsc]
    simp only [Option.elim_none]
    rw [if_neg hlen0, if_neg hlen]
    unfold fromBlocks
    simp only [e1, Res.ok_bind, e2, v, hgr, e3]
    unfold freeFirst
    rw [if_pos hm0]
    rfl
  · unfold Sel.destroy freeFirst
    split
    · rfl
    · rw [if_pos (f3 hfl)]
  · rw [hh, ← mem_ends hb, ← k2.mem_iff]
    obtain ⟨r, hr, hxr⟩ := List.mem_flatMap.mp hxc
    obtain ⟨q, hq, rfl⟩ := List.mem_map.mp hr
    exact List.mem_flatMap.mpr ⟨_, List.mem_map.mpr ⟨q, mem_groups hgm hq, rfl⟩, hxr⟩
  · unfold timesIn Sel.blocks
    rw [List.length_eq_zero_iff, List.filter_eq_nil_iff]
    intro bl hbl
    obtain ⟨r, hr, rfl⟩ := List.mem_map.mp hbl
    intro hdec
    exact hxo r hr (of_decide_eq_true hdec)

/-- Blocks that hold all cells in order contain each of them. -/
theorem exact_covers {n : Nat} {bs : List Blk} {xs : List (List Nat)} (h : Exact n bs xs) {x : List Nat} (hx : x ∈ xs) :
    timesIn bs x ≠ 0 := by
  obtain ⟨k, hk, rfl⟩ := List.getElem_of_mem hx
  intro h0
  have hp := (h.holds 1).2 k hk
  unfold timesIn at h0
  rw [List.length_eq_zero_iff, List.filter_eq_nil_iff] at h0
  have : positions 1 bs xs[k] = [] := by
    unfold positions
    rw [List.flatten_eq_nil_iff]
    intro l hl
    rw [List.mem_mapIdx] at hl
    obtain ⟨i, hi, rfl⟩ := hl
    have := h0 bs[i] (List.getElem_mem _)
    simp only [decide_eq_true_eq] at this
    rw [if_neg this]
  rw [this] at hp
  simp at hp

end Verif
