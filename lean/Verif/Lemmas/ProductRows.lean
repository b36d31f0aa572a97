import Verif.Lemmas.ProductGroup

/-
Rows of a group of blocks, for products.
-/

namespace Verif
open Spec

/-- The cells of segments, one by one. -/
def units (A : List (Nat × Nat)) : List (Nat × Nat) := A.flatMap (fun a => (List.range a.2).map (fun i => (a.1 + i, 1)))

theorem units_cons (a : Nat × Nat) (A : List (Nat × Nat)) : units (a :: A) = units [a] ++ units A := by
  simp [units]

theorem units_one (a : Nat × Nat) : units [a] = (List.range a.2).map (fun i => (a.1 + i, 1)) := by simp [units]

/-- All dimensions but the last one are taken apart. -/
def unitize : List (List (Nat × Nat)) → List (List (Nat × Nat))
  | [] => []
  | [A] => [A]
  | A :: B :: R => units A :: unitize (B :: R)

theorem unitize_cons (A : List (Nat × Nat)) {R : List (List (Nat × Nat))} (h : R ≠ []) :
    unitize (A :: R) = units A :: unitize R := by
  cases R with
  | nil => exact absurd rfl h
  | cons B R => rfl

theorem unitize_length : ∀ As : List (List (Nat × Nat)), (unitize As).length = As.length
  | [] => rfl
  | [_] => rfl
  | A :: B :: R => by simp [unitize, unitize_length (B :: R)]

theorem units_ok {A : List (Nat × Nat)} (h : SegsOK A) : SegsOK (units A) := by
  refine ⟨?_, ?_, ?_⟩
  · cases A with
    | nil => exact absurd rfl h.ne
    | cons a A =>
      rw [units_cons, units_one]
      have := h.pos a (by simp)
      intro e
      have e := congrArg List.length e
      simp at e
      omega
  · intro a ha
    simp only [units, List.mem_flatMap, List.mem_map] at ha
    obtain ⟨_, _, _, _, rfl⟩ := ha
    exact Nat.le_refl _
  · unfold units
    rw [List.pairwise_flatMap]
    refine ⟨?_, ?_⟩
    · intro a _
      rw [List.pairwise_map]
      refine List.pairwise_lt_range.imp ?_
      intro i j hij
      simp only
      omega
    · refine h.ord.imp ?_
      intro a b hab x hx y hy
      simp only [List.mem_map, List.mem_range] at hx hy
      obtain ⟨i, hi, rfl⟩ := hx
      obtain ⟨j, _, rfl⟩ := hy
      simp only
      omega

theorem unitize_ok : ∀ {As : List (List (Nat × Nat))}, (∀ A ∈ As, SegsOK A) → ∀ A ∈ unitize As, SegsOK A
  | [], _ => by simp [unitize]
  | [_], h => h
  | A :: B :: R, h => by
    intro C hC
    rw [unitize, List.mem_cons] at hC
    rcases hC with rfl | hC
    · exact units_ok (h A (by simp))
    · exact unitize_ok (fun D hD => h D (by simp [List.mem_cons.mp hD])) C hC

theorem dropLast_cons' {α : Type} (a : α) {l : List α} (h : l ≠ []) : (a :: l).dropLast = a :: l.dropLast := by
  cases l with
  | nil => exact absurd rfl h
  | cons b l => rfl

theorem getLastD_cons' (a : Nat) {l : List Nat} (h : l ≠ []) : (a :: l).getLastD 0 = l.getLastD 0 := by
  cases l with
  | nil => exact absurd rfl h
  | cons b l => rfl

theorem rowsOf_consSeg {b : Nat × Nat} (hb : 1 ≤ b.2) {n : Nat} {x : CRow} (hx : EndOK (n + 1) x) :
    rowsOf (consSeg (toE b) x) = consAll (units [b]) (rowsOf x) := by
  have h1 : x.1 ≠ [] := by
    intro e
    have := hx.len
    rw [e] at this
    simp at this
  have h2 : x.2 ≠ [] := by
    intro e
    have := hx.len2
    rw [e] at this
    simp at this
  have hc : b.1 + b.2 - 1 - b.1 + 1 = b.2 := by omega
  have hl : (b.1 :: x.1).length - 1 = (x.1.length - 1) + 1 := by
    rw [hx.len, List.length_cons, hx.len]
    omega
  unfold rowsOf
  simp only [consSeg, toE]
  rw [dropLast_cons' _ h1, dropLast_cons' _ h2, getLastD_cons' _ h1, getLastD_cons' _ h2, hl]
  simp only [cnt, List.zipWith_cons_cons, hc]
  rw [cells_cons, units_one]
  simp only [consAll, List.map_flatMap, List.flatMap_map, List.map_map]
  rfl

theorem consAll_append_right (U : List (Nat × Nat)) (Y Z : List CRow) :
    (consAll U (Y ++ Z)).Perm (consAll U Y ++ consAll U Z) := by
  induction U with
  | nil => simp [consAll_nil]
  | cons u U ih =>
    simp only [consAll_cons, List.map_append]
    refine (List.Perm.append_left _ ih).trans ?_
    rw [List.append_assoc, List.append_assoc]
    refine List.Perm.append_left _ ?_
    rw [← List.append_assoc, ← List.append_assoc]
    exact List.Perm.append_right _ List.perm_append_comm

theorem consAll_flatMap (U : List (Nat × Nat)) (f : CRow → List CRow) : ∀ X : List CRow,
    (X.flatMap (fun x => consAll U (f x))).Perm (consAll U (X.flatMap f))
  | [] => by
    simp only [List.flatMap_nil]
    have : consAll U [] = [] := by simp [consAll]
    rw [this]
  | x :: X => by
    simp only [List.flatMap_cons]
    exact (List.Perm.append_left _ (consAll_flatMap U f X)).trans (consAll_append_right U _ _).symm

theorem consAll_perm (U : List (Nat × Nat)) {Y Z : List CRow} (h : Y.Perm Z) : (consAll U Y).Perm (consAll U Z) := by
  induction U with
  | nil => simp [consAll_nil]
  | cons u U ih =>
    simp only [consAll_cons]
    exact (h.map _).append ih

theorem consAll_append_left (U V : List (Nat × Nat)) (X : List CRow) : consAll (U ++ V) X = consAll U X ++ consAll V X := by
  simp [consAll]

theorem rows_consAll {X : List CRow} {n : Nat} (hX : ∀ x ∈ X, EndOK (n + 1) x) : ∀ {A : List (Nat × Nat)}, (∀ a ∈ A, 1 ≤ a.2) →
    ((consAll (A.map toE) X).flatMap rowsOf).Perm (consAll (units A) (X.flatMap rowsOf))
  | [], _ => by simp [consAll_nil, units]
  | a :: A, h => by
    rw [List.map_cons, consAll_cons, List.flatMap_append, units_cons, consAll_append_left]
    refine List.Perm.append ?_ (rows_consAll hX (fun a ha => h a (by simp [ha])))
    rw [List.flatMap_map]
    have : X.flatMap (fun x => rowsOf (consSeg (toE a) x)) = X.flatMap (fun x => consAll (units [a]) (rowsOf x)) := by
      apply List.flatMap_congr
      intro x hx
      exact rowsOf_consSeg (h a (by simp)) (hX x hx)
    rw [this]
    exact consAll_flatMap _ _ _

theorem rows_prod : ∀ {As : List (List (Nat × Nat))}, As ≠ [] → (∀ A ∈ As, SegsOK A) →
    ((prodL (ends As)).flatMap rowsOf).Perm (prodL (unitize As))
  | [], h, _ => absurd rfl h
  | [A], _, h => by
    simp only [ends, List.map_cons, List.map_nil, prodL, unitize, consAll_one, List.flatMap_map]
    rw [List.map_eq_flatMap]
    have : A.flatMap (fun a => rowsOf (consSeg (toE a) ([], []))) = A.flatMap (fun a => [consSeg a ([], [])]) := by
      apply List.flatMap_congr
      intro a ha
      have := (h A (by simp)).pos a ha
      have e : a.1 + a.2 - 1 - a.1 + 1 = a.2 := by omega
      simp [rowsOf, consSeg, toE, cells, boxIdx, cnt, adds, e]
    rw [this]
  | A :: B :: R, _, h => by
    have h' : ∀ C ∈ B :: R, SegsOK C := fun C hC => h C (by simp [List.mem_cons.mp hC])
    rw [ends_cons, prodL, unitize, prodL]
    have ho := prodL_endOK h'
    exact (rows_consAll (n := R.length) (fun x hx => by simpa using ho x hx) (h A (by simp)).pos).trans
      (consAll_perm _ (rows_prod (by simp) h'))

theorem consAll_sorted {B : List (Nat × Nat)} {X : List CRow} (hB : B.Pairwise (fun a b => a.1 < b.1))
    (hX : X.Pairwise (fun a b => RowLt a.1 b.1)) : (consAll B X).Pairwise (fun a b => RowLt a.1 b.1) := by
  unfold consAll
  rw [List.pairwise_flatMap]
  refine ⟨?_, ?_⟩
  · intro b _
    rw [List.pairwise_map]
    refine hX.imp ?_
    intro x y hxy
    exact .inr ⟨rfl, hxy⟩
  · refine hB.imp ?_
    intro a b hab x hx y hy
    simp only [List.mem_map] at hx hy
    obtain ⟨x, _, rfl⟩ := hx
    obtain ⟨y, _, rfl⟩ := hy
    exact .inl hab

theorem prodL_sorted {As : List (List (Nat × Nat))} (h : ∀ A ∈ As, SegsOK A) :
    (prodL As).Pairwise (fun a b => RowLt a.1 b.1) := by
  induction As with
  | nil => simp [prodL]
  | cons A R ih => exact consAll_sorted (h A (by simp)).starts (ih (fun B hB => h B (by simp [hB])))

theorem pairwise_total {α : Type} {R : α → α → Prop} {l : List α} (h : l.Pairwise R) {a b : α} (ha : a ∈ l) (hb : b ∈ l) :
    a = b ∨ R a b ∨ R b a := by
  induction l with
  | nil => simp at ha
  | cons x l ih =>
    rw [List.pairwise_cons] at h
    rw [List.mem_cons] at ha hb
    rcases ha with rfl | ha <;> rcases hb with rfl | hb
    · exact .inl rfl
    · exact .inr (.inl (h.1 b hb))
    · exact .inr (.inr (h.1 a ha))
    · exact ih h.2 ha hb

theorem perm_eq {α : Type} {R : α → α → Prop} : ∀ {l l' : List α}, l.Perm l' → l.Pairwise (fun a b => ¬ R b a) →
    l'.Pairwise R → l = l'
  | [], l', p, _, _ => p.nil_eq
  | x :: l, [], p, _, _ => absurd p.length_eq (by simp)
  | x :: l, y :: l', p, h, h' => by
    rw [List.pairwise_cons] at h h'
    have hxy : x = y := by
      have hx : x ∈ y :: l' := p.mem_iff.mp (by simp)
      have hy : y ∈ x :: l := p.mem_iff.mpr (by simp)
      rcases List.mem_cons.mp hy with e | hy
      · exact e.symm
      rcases List.mem_cons.mp hx with e | hx
      · exact e
      exact absurd (h'.1 x hx) (h.1 y hy)
    subst hxy
    rw [perm_eq ((List.perm_cons x).mp p) h.2 h'.2]

/-- The sorted rows of a product are a product. -/
theorem sortL_rows {srt : List (List Nat) → List Nat} (hs : IsSort srt) {As : List (List (Nat × Nat))} (hne : As ≠ [])
    (h : ∀ A ∈ As, SegsOK A) : sortL srt ((prodL (ends As)).flatMap rowsOf) = prodL (unitize As) :=
  perm_eq (R := fun a b => RowLt a.1 b.1) ((sortL_perm hs _).trans (rows_prod hne h)) (sortL_sorted hs _)
    (prodL_sorted (unitize_ok h))

theorem ends_length (As : List (List (Nat × Nat))) : (prodL (ends As)).length = (prodL As).length := by
  rw [prodL_length, prodL_length]
  congr 1
  simp [ends]

theorem outL_prod {srt : List (List Nat) → List Nat} (hs : IsSort srt) {As : List (List (Nat × Nat))} (hne : As ≠ [])
    (h : ∀ A ∈ As, SegsOK A) (h1 : (prodL As).length ≠ 1) :
    outL srt As.length (prodL (ends As)) = prodL (nrm (unitize As)) := by
  unfold outL
  rw [if_neg (by rw [ends_length]; exact h1), sortL_rows hs hne h, ← mergeAllL_prod (unitize_ok h), unitize_length]

/-! ### When no rows are merged -/

/-- No rows are merged. -/
def NM (g : List (List (Nat × Nat))) : Prop := (prodL (nrm (unitize g))).length = (prodL (unitize g)).length

theorem settled_prod {srt : List (List Nat) → List Nat} (hs : IsSort srt) {As : List (List (Nat × Nat))} (hne : As ≠ [])
    (h : ∀ A ∈ As, SegsOK A) : Settled srt As.length (prodL (ends As)) ↔ Singles As = true ∨ NM As := by
  unfold Settled
  rw [ends_length, singles_iff h]
  by_cases h1 : (prodL As).length = 1
  · simp [h1]
  · rw [outL_prod hs hne h h1, (rows_prod hne h).length_eq]
    rfl

theorem joinFrom_units_one (a : Nat × Nat) (ha : 1 ≤ a.2) : ∀ (k m : Nat) (r : List (Nat × Nat)), 1 ≤ m →
    joinFrom (a.1, m) ((List.range' m k).map (fun i => (a.1 + i, 1)) ++ r) = joinFrom (a.1, m + k) r
  | 0, m, r, _ => by simp
  | k + 1, m, r, hm => by
    rw [List.range'_succ, List.map_cons, List.cons_append, joinFrom, if_pos rfl, joinFrom_units_one a ha k (m + 1) r (by omega)]
    congr 2
    omega

theorem units_head {b : Nat × Nat} (hb : 1 ≤ b.2) (B : List (Nat × Nat)) :
    units (b :: B) = (b.1, 1) :: ((List.range' 1 (b.2 - 1)).map (fun i => (b.1 + i, 1)) ++ units B) := by
  rw [units_cons, units_one, List.range_eq_range']
  obtain ⟨k, hk⟩ : ∃ k, b.2 = k + 1 := ⟨b.2 - 1, by omega⟩
  rw [hk, List.range'_succ]
  simp

theorem joinFrom_units : ∀ {A : List (Nat × Nat)}, (∀ a ∈ A, 1 ≤ a.2) → ∀ a : Nat × Nat,
    joinFrom a (units A) = joinFrom a A
  | [], _, _ => rfl
  | b :: B, h, a => by
    have hb := h b (by simp)
    have ih := joinFrom_units (A := B) (fun a ha => h a (by simp [ha]))
    rw [units_head hb, joinFrom]
    by_cases hc : a.1 + a.2 = b.1
    · rw [if_pos hc]
      have : (fun i => (b.1 + i, 1)) = (fun i => ((a.1 : Nat) + (a.2 + i), (1 : Nat))) := by
        funext i
        rw [← hc]
        congr 1
        omega
      have e2 : (List.range' 1 (b.2 - 1)).map (fun i => (b.1 + i, 1)) =
          (List.range' (a.2 + 1) (b.2 - 1)).map (fun i => (a.1 + i, 1)) := by
        rw [this]
        apply List.ext_getElem
        · simp
        · intro i h1 h2
          simp
          omega
      rw [e2, joinFrom]
      rw [if_pos hc]
      by_cases ha : 1 ≤ a.2 + 1
      · have e3 := joinFrom_units_one (a.1, 1) (Nat.le_refl _) (b.2 - 1) (a.2 + 1) (units B) (by omega)
        simp only at e3
        rw [e3, ih]
        congr 2
        omega
      · omega
    · rw [if_neg hc, joinFrom, if_neg hc]
      congr 1
      have e3 := joinFrom_units_one (b.1, 1) (Nat.le_refl _) (b.2 - 1) 1 (units B) (by omega)
      simp only at e3
      rw [e3, ih]
      congr 1
      ext
      · rfl
      · simp only; omega

theorem joinSegs_units {A : List (Nat × Nat)} (h : ∀ a ∈ A, 1 ≤ a.2) : joinSegs (units A) = joinSegs A := by
  cases A with
  | nil => rfl
  | cons b B =>
    have hb := h b (by simp)
    rw [units_head hb, joinSegs, joinSegs]
    have e3 := joinFrom_units_one (b.1, 1) (Nat.le_refl _) (b.2 - 1) 1 (units B) (by omega)
    simp only at e3
    rw [e3, joinFrom_units (fun a ha => h a (by simp [ha]))]
    congr 1
    ext
    · rfl
    · simp only; omega

theorem singles_nrm_unitize : ∀ {As : List (List (Nat × Nat))}, (∀ A ∈ As, SegsOK A) →
    Singles (nrm (unitize As)) = Singles (nrm As)
  | [], _ => rfl
  | [A], _ => rfl
  | A :: B :: R, h => by
    have ih := singles_nrm_unitize (As := B :: R) (fun C hC => h C (by simp [List.mem_cons.mp hC]))
    rw [unitize, nrm, nrm, ih]
    unfold Singles at ih ⊢
    rw [List.all_cons, List.all_cons, ih]
    by_cases hS : ((nrm (B :: R)).all fun A => decide (A.length = 1)) = true
    · rw [if_pos hS, if_pos hS, joinSegs_units (h A (by simp)).pos]
    · have : ((nrm (B :: R)).all fun A => decide (A.length = 1)) = false := by simpa using hS
      rw [this, Bool.and_false, Bool.and_false]

theorem joinFrom_length_le : ∀ (a : Nat × Nat) (r : List (Nat × Nat)), (joinFrom a r).length ≤ r.length + 1
  | a, [] => by simp [joinFrom]
  | a, b :: r => by
    unfold joinFrom
    split
    · have := joinFrom_length_le (a.1, a.2 + b.2) r
      simp only [List.length_cons]
      omega
    · have := joinFrom_length_le b r
      simp only [List.length_cons]
      omega

theorem joinSegs_length_le (A : List (Nat × Nat)) : (joinSegs A).length ≤ A.length := by
  cases A with
  | nil => simp [joinSegs]
  | cons a r => exact joinFrom_length_le a r

theorem nrm_prod_le : ∀ As : List (List (Nat × Nat)), (prodL (nrm As)).length ≤ (prodL As).length
  | [] => Nat.le_refl _
  | A :: R => by
    rw [nrm, prodL, prodL, consAll_length, consAll_length]
    refine Nat.mul_le_mul ?_ (nrm_prod_le R)
    split
    · exact joinSegs_length_le A
    · exact Nat.le_refl _

theorem mul_eq_of_le {a b c d : Nat} (h1 : a ≤ c) (h2 : b ≤ d) (ha : 1 ≤ a) (hb : 1 ≤ b) : a * b = c * d ↔ a = c ∧ b = d := by
  constructor
  · intro h
    have e1 : a = c := by
      rcases Nat.lt_or_ge a c with hl | hl
      · have h3 : a * d < c * d := Nat.mul_lt_mul_of_pos_right hl (by omega)
        have h4 : a * b ≤ a * d := Nat.mul_le_mul_left a h2
        omega
      · omega
    subst e1
    exact ⟨rfl, Nat.eq_of_mul_eq_mul_left ha h⟩
  · rintro ⟨rfl, rfl⟩
    rfl

theorem nm_cons {A : List (Nat × Nat)} {R : List (List (Nat × Nat))} (hR : R ≠ []) (h : ∀ B ∈ A :: R, SegsOK B) :
    NM (A :: R) ↔ NM R ∧ (Singles (nrm R) = true → (joinSegs A).length = (units A).length) := by
  have hR' : ∀ B ∈ R, SegsOK B := fun B hB => h B (by simp [hB])
  have hA := h A (by simp)
  unfold NM
  rw [unitize_cons A hR, nrm, prodL, prodL, consAll_length, consAll_length, singles_nrm_unitize hR']
  have p2 : 1 ≤ (prodL (nrm (unitize R))).length := by
    have := List.length_pos_of_ne_nil (prodL_ne (nrm_ok (unitize_ok hR')))
    omega
  by_cases hS : Singles (nrm R) = true
  · rw [if_pos hS, joinSegs_units hA.pos]
    rw [mul_eq_of_le (by have := joinSegs_length_le (units A); rw [joinSegs_units hA.pos] at this; exact this)
      (nrm_prod_le _) (by have := List.length_pos_of_ne_nil (joinSegs_ok hA).ne; omega) p2]
    simp only [hS, forall_const]
    exact and_comm
  · rw [if_neg hS, mul_eq_of_le (Nat.le_refl _) (nrm_prod_le _)
      (by have := List.length_pos_of_ne_nil (units_ok hA).ne; omega) p2]
    simp [hS]

theorem nm_one (A : List (Nat × Nat)) : NM [A] ↔ (joinSegs A).length = A.length := by
  simp [NM, unitize, nrm, prodL, consAll_length, Singles]

end Verif
