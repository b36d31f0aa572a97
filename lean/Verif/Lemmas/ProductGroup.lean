import Verif.Lemmas.Product

/-
Groups of interleaved blocks, and their rows, for products.
-/

namespace Verif
open Spec

/-! ### Blocks by start and end -/

def toE (a : Nat × Nat) : Nat × Nat := (a.1, a.1 + a.2 - 1)

def ends (As : List (List (Nat × Nat))) : List (List (Nat × Nat)) := As.map (·.map toE)

theorem ends_cons (A : List (Nat × Nat)) (R : List (List (Nat × Nat))) : ends (A :: R) = A.map toE :: ends R := rfl

theorem toCount_consSeg {b : Nat × Nat} (h : 1 ≤ b.2) (x : CRow) : toCount (consSeg (toE b) x) = consSeg b (toCount x) := by
  simp only [toCount, consSeg, toE, List.zipWith_cons_cons]
  congr 2
  omega

theorem map_toCount_consAll {B : List (Nat × Nat)} (h : ∀ b ∈ B, 1 ≤ b.2) (X : List CRow) :
    (consAll (B.map toE) X).map toCount = consAll B (X.map toCount) := by
  induction B with
  | nil => rfl
  | cons b B ih =>
    rw [List.map_cons, consAll_cons, consAll_cons, List.map_append, ih (fun b hb => h b (by simp [hb])), List.map_map, List.map_map]
    congr 1
    apply List.map_congr_left
    intro x _
    exact toCount_consSeg (h b (by simp)) x

theorem prodL_ends {As : List (List (Nat × Nat))} (h : ∀ A ∈ As, SegsOK A) : (prodL (ends As)).map toCount = prodL As := by
  induction As with
  | nil => rfl
  | cons A R ih =>
    rw [ends_cons, prodL, map_toCount_consAll (h A (by simp)).pos, ih (fun B hB => h B (by simp [hB])), prodL]

theorem prodL_endOK {As : List (List (Nat × Nat))} (h : ∀ A ∈ As, SegsOK A) : ∀ r ∈ prodL (ends As), EndOK As.length r := by
  induction As with
  | nil =>
    intro r hr
    simp only [ends, List.map_nil, prodL, List.mem_singleton] at hr
    subst hr
    exact ⟨rfl, .nil⟩
  | cons A R ih =>
    intro r hr
    rw [ends_cons, prodL] at hr
    obtain ⟨b, hb, x, hx, rfl⟩ := mem_consAll.mp hr
    obtain ⟨a, ha, rfl⟩ := List.mem_map.mp hb
    have ih := ih (fun B hB => h B (by simp [hB])) x hx
    have := (h A (by simp)).pos a ha
    exact ⟨by simp [consSeg, ih.len], .cons (by simp only [toE]; omega) ih.le⟩

theorem map_toCount_inj {n : Nat} : ∀ {l l' : List CRow}, (∀ r ∈ l, EndOK n r) → (∀ r ∈ l', EndOK n r) →
    l.map toCount = l'.map toCount → l = l'
  | [], [], _, _, _ => rfl
  | x :: l, y :: l', h, h', e => by
    simp only [List.map_cons, List.cons.injEq] at e
    rw [map_toCount_inj (fun r hr => h r (by simp [hr])) (fun r hr => h' r (by simp [hr])) e.2]
    congr 1
    have hx := h x (by simp)
    have hy := h' y (by simp)
    obtain ⟨x1, x2⟩ := x
    obtain ⟨y1, y2⟩ := y
    have e1 := e.1
    simp only [toCount_eq, Prod.mk.injEq] at e1
    obtain ⟨rfl, e2⟩ := e1
    have e3 : x2 = y2 := (cnt_inj hx.le hy.le).mp e2
    rw [e3]
  | [], _ :: _, _, _, e => by simp at e
  | _ :: _, [], _, _, e => by simp at e

/-! ### Groups -/

theorem groupFrom_append {l2 : List CRow} : ∀ (x : CRow) (r : List CRow),
    (∀ z ∈ (x :: r).getLast?, ∀ y ∈ l2.head?, lexLt z.2 y.1 = true) →
    groupFrom x (r ++ l2) = groupFrom x r ++ groupRows l2
  | x, [], h => by
    cases l2 with
    | nil => rfl
    | cons y l2 =>
      have := h x (by simp) y (by simp)
      simp only [List.nil_append, groupFrom, groupRows, this, if_true]
      rfl
  | x, y :: r, h => by
    have ih := groupFrom_append (l2 := l2) y r (by
      intro z hz
      apply h z
      rw [List.getLast?_cons_cons]
      exact hz)
    rw [List.cons_append]
    simp only [groupFrom, ih]
    split
    · rfl
    · obtain ⟨g, t, e⟩ := groupFrom_cons y r
      rw [e]
      rfl

theorem groupRows_append {l1 l2 : List CRow} (h : ∀ z ∈ l1.getLast?, ∀ y ∈ l2.head?, lexLt z.2 y.1 = true) :
    groupRows (l1 ++ l2) = groupRows l1 ++ groupRows l2 := by
  cases l1 with
  | nil => rfl
  | cons x r => exact groupFrom_append x r h

theorem groupFrom_unit (s : Nat) : ∀ (x : CRow) (X : List CRow),
    groupFrom (consSeg (s, s) x) (X.map (consSeg (s, s))) = (groupFrom x X).map (·.map (consSeg (s, s)))
  | x, [] => rfl
  | x, y :: X => by
    have ih := groupFrom_unit s y X
    have e : lexLt (consSeg (s, s) x).2 (consSeg (s, s) y).1 = lexLt x.2 y.1 := by simp [consSeg, lexLt]
    simp only [List.map_cons, groupFrom, e, ih]
    split
    · rfl
    · obtain ⟨g, t, e⟩ := groupFrom_cons y X
      rw [e]
      rfl

theorem groupRows_unit (s : Nat) (X : List CRow) :
    groupRows (X.map (consSeg (s, s))) = (groupRows X).map (·.map (consSeg (s, s))) := by
  cases X with
  | nil => rfl
  | cons x X => exact groupFrom_unit s x X

theorem groupFrom_wide {s e : Nat} (h : s < e) : ∀ (x : CRow) (X : List CRow),
    groupFrom (consSeg (s, e) x) (X.map (consSeg (s, e))) = [(x :: X).map (consSeg (s, e))]
  | x, [] => rfl
  | x, y :: X => by
    have ih := groupFrom_wide h y X
    have e : lexLt (consSeg (s, e) x).2 (consSeg (s, e) y).1 = false := by
      simp only [consSeg, lexLt]
      simp
      omega
    simp only [List.map_cons, groupFrom, e, ih]
    simp

theorem groupRows_wide {s e : Nat} (h : s < e) {X : List CRow} (hX : X ≠ []) :
    groupRows (X.map (consSeg (s, e))) = [X.map (consSeg (s, e))] := by
  cases X with
  | nil => exact absurd rfl hX
  | cons x X => exact groupFrom_wide h x X

theorem groupRows_consAll {X : List CRow} : ∀ {B : List (Nat × Nat)}, B.Pairwise (fun a b => a.2 < b.1) →
    groupRows (consAll B X) = B.flatMap (fun b => groupRows (X.map (consSeg b)))
  | [], _ => rfl
  | b :: B, h => by
    rw [consAll_cons, List.flatMap_cons, groupRows_append, groupRows_consAll (List.pairwise_cons.mp h).2]
    intro z hz y hy
    rw [List.getLast?_map] at hz
    simp only [Option.mem_def, Option.map_eq_some_iff] at hz
    obtain ⟨w, _, rfl⟩ := hz
    obtain ⟨b', hb', x, _, rfl⟩ := mem_consAll.mp (List.mem_of_mem_head? hy)
    have := (List.pairwise_cons.mp h).1 b' hb'
    simp [consSeg, lexLt, this]

/-- All segments have one cell, or all have more. -/
def Even (A : List (Nat × Nat)) : Prop := (∀ a ∈ A, a.2 = 1) ∨ ∀ a ∈ A, 1 < a.2

def unitSegs (A : List (Nat × Nat)) : Bool := A.all (fun a => decide (a.2 = 1))

/-- The groups of a product. -/
def grN : List (List (Nat × Nat)) → List (List (List (Nat × Nat)))
  | [] => [[]]
  | A :: R => if unitSegs A then A.flatMap (fun b => (grN R).map ([b] :: ·)) else A.map (fun b => [b] :: R)

theorem prodL_single (b : Nat × Nat) (R : List (List (Nat × Nat))) : prodL ([b] :: R) = (prodL R).map (consSeg b) := by
  rw [prodL, consAll_cons, consAll_nil, List.append_nil]

theorem SegsOK.endsOrd {A : List (Nat × Nat)} (h : SegsOK A) : (A.map toE).Pairwise (fun a b => a.2 < b.1) := by
  rw [List.pairwise_map]
  refine h.ord.imp_of_mem ?_
  intro a b ha _ hab
  have := h.pos a ha
  simp only [toE]
  omega

theorem groupRows_prod {As : List (List (Nat × Nat))} (h : ∀ A ∈ As, SegsOK A ∧ Even A) :
    groupRows (prodL (ends As)) = (grN As).map (fun g => prodL (ends g)) := by
  induction As with
  | nil => rfl
  | cons A R ih =>
    have ih := ih (fun B hB => h B (by simp [hB]))
    have hA := h A (by simp)
    rw [ends_cons, prodL, groupRows_consAll hA.1.endsOrd, List.flatMap_map, grN]
    by_cases hu : unitSegs A = true
    · rw [if_pos hu, List.map_flatMap]
      apply List.flatMap_congr
      intro a ha
      have h1 : a.2 = 1 := by simpa using List.all_eq_true.mp hu a ha
      have e : toE a = (a.1, a.1) := by simp only [toE]; rw [h1]; rfl
      rw [e, groupRows_unit, ih, List.map_map, List.map_map]
      apply List.map_congr_left
      intro g _
      simp only [Function.comp, ends_cons, List.map_cons, List.map_nil, prodL_single, e]
    · rw [if_neg hu, List.map_map, List.map_eq_flatMap]
      apply List.flatMap_congr
      intro a ha
      have h1 : 1 < a.2 := by
        rcases hA.2 with h2 | h2
        · exact absurd (List.all_eq_true.mpr (fun a ha => by simpa using h2 a ha)) hu
        · exact h2 a ha
      have hne : prodL (ends R) ≠ [] := by
        have := prodL_ne (fun B hB => (h B (by simp [hB])).1 : ∀ B ∈ R, SegsOK B)
        rw [← prodL_ends (fun B hB => (h B (by simp [hB])).1 : ∀ B ∈ R, SegsOK B)] at this
        simpa using this
      have hlt : a.1 < a.1 + a.2 - 1 := by omega
      show groupRows ((prodL (ends R)).map (consSeg (a.1, a.1 + a.2 - 1))) = _
      rw [groupRows_wide hlt hne]
      simp only [Function.comp, ends_cons, List.map_cons, List.map_nil, prodL_single]
      rfl

end Verif
