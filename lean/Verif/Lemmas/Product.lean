import Verif.Lemmas.Strided

/-
Block lists that are products of one list of segments `(start, count)` per dimension: what `merge_blocks` makes of them.
-/

namespace Verif
open Spec

def consSeg (a : Nat × Nat) (q : CRow) : CRow := (a.1 :: q.1, a.2 :: q.2)

/-- All segments with all rows of the following dimensions. -/
def consAll (B : List (Nat × Nat)) (X : List CRow) : List CRow := B.flatMap (fun b => X.map (consSeg b))

def prodL : List (List (Nat × Nat)) → List CRow
  | [] => [([], [])]
  | A :: R => consAll A (prodL R)

theorem consAll_nil (X : List CRow) : consAll [] X = [] := rfl

theorem consAll_cons (b : Nat × Nat) (B : List (Nat × Nat)) (X : List CRow) :
    consAll (b :: B) X = X.map (consSeg b) ++ consAll B X := List.flatMap_cons

theorem consAll_one (B : List (Nat × Nat)) (y : CRow) : consAll B [y] = B.map (fun b => consSeg b y) := by
  simp [consAll, List.map_eq_flatMap]

theorem consAll_ne {B : List (Nat × Nat)} {X : List CRow} (hB : B ≠ []) (hX : X ≠ []) : consAll B X ≠ [] := by
  cases B with
  | nil => exact absurd rfl hB
  | cons b B =>
    cases X with
    | nil => exact absurd rfl hX
    | cons x X => simp [consAll_cons]

theorem consAll_length (B : List (Nat × Nat)) (X : List CRow) : (consAll B X).length = B.length * X.length := by
  induction B with
  | nil => simp [consAll_nil]
  | cons b B ih => rw [consAll_cons, List.length_append, ih, List.length_map, List.length_cons, Nat.add_mul]; omega

theorem mem_consAll {B : List (Nat × Nat)} {X : List CRow} {z : CRow} :
    z ∈ consAll B X ↔ ∃ b ∈ B, ∃ x ∈ X, z = consSeg b x := by
  simp only [consAll, List.mem_flatMap, List.mem_map]
  constructor
  · rintro ⟨b, hb, x, hx, rfl⟩; exact ⟨b, hb, x, hx, rfl⟩
  · rintro ⟨b, hb, x, hx, rfl⟩; exact ⟨b, hb, x, hx, rfl⟩

theorem canMerge_consSeg (u : Bool) (d : Nat) (b b' : Nat × Nat) (x y : CRow) :
    canMerge u (d + 1) (consSeg b x).1 (consSeg b x).2 (consSeg b' y).1 (consSeg b' y).2 =
      (decide (b' = b) && canMerge u d x.1 x.2 y.1 y.2) := by
  obtain ⟨b1, b2⟩ := b
  obtain ⟨c1, c2⟩ := b'
  simp [consSeg, canMerge]

theorem mergeL_consSeg (d : Nat) (b : Nat × Nat) {rest : List CRow}
    (hr : ∀ z ∈ rest.head?, ∃ b' z', z = consSeg b' z' ∧ b' ≠ b) : ∀ (x : CRow) (X : List CRow),
    mergeL false (d + 1) (consSeg b x) (X.map (consSeg b) ++ rest) =
      (mergeL false d x X).map (consSeg b) ++ mergeDimL false (d + 1) rest
  | x, [] => by
    cases rest with
    | nil => rfl
    | cons z r =>
      obtain ⟨b', z', rfl, hb⟩ := hr z (by simp)
      simp only [List.map_nil, List.nil_append, mergeL, mergeDimL, List.map_cons, List.cons_append]
      rw [if_neg (by rw [canMerge_consSeg]; simp [hb])]
  | x, y :: X => by
    simp only [List.map_cons, List.cons_append, mergeL]
    rw [canMerge_consSeg]
    simp only [decide_true, Bool.true_and]
    by_cases h : canMerge false d x.1 x.2 y.1 y.2 = true
    · rw [if_pos h, if_pos h]
      exact mergeL_consSeg d b hr (x.1, mergeCount false d x.2 y.2) X
    · rw [if_neg h, if_neg h]
      simp only [List.map_cons, List.cons_append]
      rw [mergeL_consSeg d b hr y X]

/-- Merging in a later dimension. -/
theorem mergeDimL_consAll (d : Nat) {X : List CRow} (hX : X ≠ []) : ∀ {B : List (Nat × Nat)}, B.IsChain (· ≠ ·) →
    mergeDimL false (d + 1) (consAll B X) = consAll B (mergeDimL false d X)
  | [], _ => rfl
  | b :: B, h => by
    cases X with
    | nil => exact absurd rfl hX
    | cons x X =>
      rw [consAll_cons, consAll_cons, List.map_cons, List.cons_append]
      have hr : ∀ z ∈ (consAll B (x :: X)).head?, ∃ b' z', z = consSeg b' z' ∧ b' ≠ b := by
        intro z hz
        cases B with
        | nil => simp [consAll_nil] at hz
        | cons b' B =>
          rw [List.isChain_cons_cons] at h
          simp only [consAll_cons, List.map_cons, List.cons_append, List.head?_cons, Option.mem_def, Option.some.injEq] at hz
          exact ⟨b', x, hz.symm, fun e => h.1 e.symm⟩
      show mergeL false (d + 1) (consSeg b x) (X.map (consSeg b) ++ consAll B (x :: X)) = _
      rw [mergeL_consSeg d b hr, mergeDimL_consAll d hX (by simpa using h.tail)]
      rfl

theorem mergeAllL_consAll {B : List (Nat × Nat)} (h : B.IsChain (· ≠ ·)) : ∀ (n : Nat) {X : List CRow}, X ≠ [] →
    mergeAllL false (n + 1) (consAll B X) = mergeDimL false 0 (consAll B (mergeAllL false n X))
  | 0, _, _ => rfl
  | n + 1, X, hX => by
    rw [mergeAllL, mergeDimL_consAll n hX h, mergeAllL_consAll h n (mergeDimL_ne hX)]
    rfl

/-- Touching segments are joined. -/
def joinFrom (a : Nat × Nat) : List (Nat × Nat) → List (Nat × Nat)
  | [] => [a]
  | b :: r => if a.1 + a.2 = b.1 then joinFrom (a.1, a.2 + b.2) r else a :: joinFrom b r

def joinSegs : List (Nat × Nat) → List (Nat × Nat)
  | [] => []
  | a :: r => joinFrom a r

theorem mergeL_one (y : CRow) : ∀ (a : Nat × Nat) (B : List (Nat × Nat)),
    mergeL false 0 (consSeg a y) (B.map (fun b => consSeg b y)) = (joinFrom a B).map (fun b => consSeg b y)
  | a, [] => rfl
  | a, b :: B => by
    simp only [List.map_cons, mergeL, joinFrom]
    have e : canMerge false 0 (consSeg a y).1 (consSeg a y).2 (consSeg b y).1 (consSeg b y).2 = decide (a.1 + a.2 = b.1) := by
      simp [consSeg, canMerge, follows]
    rw [e]
    by_cases h : a.1 + a.2 = b.1
    · rw [if_pos (by simpa using h), if_pos h]
      exact mergeL_one y (a.1, a.2 + b.2) B
    · rw [if_neg (by simpa using h), if_neg h]
      simp only [List.map_cons]
      rw [mergeL_one y b B]

theorem mergeDimL_one (B : List (Nat × Nat)) (y : CRow) :
    mergeDimL false 0 (consAll B [y]) = consAll (joinSegs B) [y] := by
  rw [consAll_one, consAll_one]
  cases B with
  | nil => rfl
  | cons a B => exact mergeL_one y a B

theorem mergeL_same {u : Bool} {d : Nat} : ∀ {x : CRow} {r : List CRow},
    (x :: r).IsChain (fun a b => canMerge u d a.1 a.2 b.1 b.2 = false) → mergeL u d x r = x :: r
  | _, [], _ => rfl
  | x, y :: r, h => by
    rw [List.isChain_cons_cons] at h
    unfold mergeL
    rw [if_neg (by rw [h.1]; simp), mergeL_same h.2]

theorem mergeDimL_same {u : Bool} {d : Nat} {l : List CRow}
    (h : l.IsChain (fun a b => canMerge u d a.1 a.2 b.1 b.2 = false)) : mergeDimL u d l = l := by
  cases l with
  | nil => rfl
  | cons x r => exact mergeL_same h

theorem isChain_all {α : Type} {R : α → α → Prop} (h : ∀ a b, R a b) : ∀ l : List α, l.IsChain R
  | [] => by simp
  | [a] => by simp
  | a :: b :: l => by
    rw [List.isChain_cons_cons]
    exact ⟨h a b, isChain_all h (b :: l)⟩

/-- Nothing is merged in a dimension that is followed by several blocks. -/
theorem mergeDimL_zero_keep {B : List (Nat × Nat)} (hp : ∀ b ∈ B, 1 ≤ b.2) {Y : List CRow}
    (hY : ∀ x ∈ Y.getLast?, ∀ y ∈ Y.head?, x ≠ y) : mergeDimL false 0 (consAll B Y) = consAll B Y := by
  refine mergeDimL_same ?_
  induction B with
  | nil => simp [consAll_nil]
  | cons b B ih =>
    rw [consAll_cons, List.isChain_append]
    have hb := hp b (by simp)
    refine ⟨?_, ih (fun b hb => hp b (by simp [hb])), ?_⟩
    · rw [List.isChain_map]
      refine isChain_all (fun x y => ?_) _
      simp only [consSeg, canMerge, follows, Bool.false_eq_true, if_false]
      rw [decide_eq_false (by omega)]
      rfl
    · intro x hx y hy
      rw [List.getLast?_map] at hx
      simp only [Option.mem_def, Option.map_eq_some_iff] at hx
      obtain ⟨w, hw, rfl⟩ := hx
      cases B with
      | nil => simp [consAll_nil] at hy
      | cons b' B =>
        cases Y with
        | nil => simp at hw
        | cons z Y =>
          simp only [consAll_cons, List.map_cons, List.cons_append, List.head?_cons, Option.mem_def, Option.some.injEq] at hy
          rw [← hy]
          have := hY w hw z (by simp)
          simp only [consSeg, canMerge, Bool.and_eq_false_iff, decide_eq_false_iff_not]
          right
          rintro ⟨h1, h2⟩
          exact this (Prod.ext h1.symm h2.symm)

/-! ### Normal forms -/

/-- Segments that are not empty, in order, without common cells. -/
structure SegsOK (A : List (Nat × Nat)) : Prop where
  ne : A ≠ []
  pos : ∀ a ∈ A, 1 ≤ a.2
  ord : A.Pairwise (fun a b => a.1 + a.2 ≤ b.1)

theorem SegsOK.nodup {A : List (Nat × Nat)} (h : SegsOK A) : A.Nodup := by
  refine h.ord.imp_of_mem ?_
  intro a b ha _ hab e
  subst e
  have := h.pos a ha
  omega

theorem SegsOK.starts {A : List (Nat × Nat)} (h : SegsOK A) : A.Pairwise (fun a b => a.1 < b.1) := by
  refine h.ord.imp_of_mem ?_
  intro a b ha _ hab
  have := h.pos a ha
  omega

theorem SegsOK.chain {A : List (Nat × Nat)} (h : SegsOK A) : A.IsChain (· ≠ ·) := h.nodup.isChain

theorem joinFrom_ne (a : Nat × Nat) (r : List (Nat × Nat)) : joinFrom a r ≠ [] := by
  induction r generalizing a with
  | nil => simp [joinFrom]
  | cons b r ih => unfold joinFrom; split <;> simp [ih]

theorem joinFrom_first : ∀ (a : Nat × Nat) (r : List (Nat × Nat)), ∀ c ∈ joinFrom a r, c.1 = a.1 ∨ ∃ b ∈ r, c.1 = b.1
  | a, [] => by simp [joinFrom]
  | a, b :: r => by
    unfold joinFrom
    intro c hc
    split at hc
    · rcases joinFrom_first (a.1, a.2 + b.2) r c hc with h | ⟨x, hx, h⟩
      · exact .inl h
      · exact .inr ⟨x, by simp [hx], h⟩
    · rcases List.mem_cons.mp hc with rfl | hc
      · exact .inl rfl
      · rcases joinFrom_first b r c hc with h | ⟨x, hx, h⟩
        · exact .inr ⟨b, by simp, h⟩
        · exact .inr ⟨x, by simp [hx], h⟩

theorem joinFrom_ok : ∀ {a : Nat × Nat} {r : List (Nat × Nat)}, SegsOK (a :: r) → SegsOK (joinFrom a r)
  | a, [], h => h
  | a, b :: r, h => by
    have h2 := List.pairwise_cons.mp h.ord
    have h3 := List.pairwise_cons.mp h2.2
    have hb := h.pos b (by simp)
    unfold joinFrom
    split
    · rename_i e
      refine joinFrom_ok ⟨by simp, ?_, List.pairwise_cons.mpr ⟨?_, h3.2⟩⟩
      · intro x hx
        rcases List.mem_cons.mp hx with rfl | hx
        · simp only; omega
        · exact h.pos x (by simp [hx])
      · intro x hx
        have := h3.1 x hx
        simp only
        omega
    · have ih := joinFrom_ok (a := b) (r := r) ⟨by simp, fun x hx => h.pos x (by simp only [List.mem_cons] at hx ⊢; exact .inr hx), h2.2⟩
      refine ⟨by simp, ?_, List.pairwise_cons.mpr ⟨?_, ih.ord⟩⟩
      · intro x hx
        rcases List.mem_cons.mp hx with rfl | hx
        · exact h.pos x (by simp)
        · exact ih.pos x hx
      · intro x hx
        rcases joinFrom_first b r x hx with e | ⟨y, hy, e⟩
        · rw [e]; exact h2.1 b (by simp)
        · rw [e]; exact h2.1 y (by simp [hy])

theorem joinSegs_ok {A : List (Nat × Nat)} (h : SegsOK A) : SegsOK (joinSegs A) := by
  cases A with
  | nil => exact absurd rfl h.ne
  | cons a r => exact joinFrom_ok h

/-- No two consecutive segments touch. -/
def Parted (A : List (Nat × Nat)) : Prop := A.IsChain (fun a b => a.1 + a.2 ≠ b.1)

theorem joinFrom_parted : ∀ {a : Nat × Nat} {r : List (Nat × Nat)}, Parted (a :: r) → joinFrom a r = a :: r
  | a, [], _ => rfl
  | a, b :: r, h => by
    unfold Parted at h
    rw [List.isChain_cons_cons] at h
    unfold joinFrom
    rw [if_neg h.1, joinFrom_parted h.2]

theorem joinSegs_parted {A : List (Nat × Nat)} (h : Parted A) : joinSegs A = A := by
  cases A with
  | nil => rfl
  | cons a r => exact joinFrom_parted h

theorem joinFrom_head : ∀ (a : Nat × Nat) (r : List (Nat × Nat)), ∃ n r', joinFrom a r = (a.1, n) :: r'
  | a, [] => ⟨a.2, [], rfl⟩
  | a, b :: r => by
    unfold joinFrom
    split
    · exact joinFrom_head (a.1, a.2 + b.2) r
    · exact ⟨a.2, _, rfl⟩

theorem parted_joinFrom : ∀ (a : Nat × Nat) (r : List (Nat × Nat)), Parted (joinFrom a r)
  | a, [] => by simp [joinFrom, Parted]
  | a, b :: r => by
    unfold joinFrom
    split
    · exact parted_joinFrom _ r
    · rename_i h
      obtain ⟨n, r', e⟩ := joinFrom_head b r
      have := parted_joinFrom b r
      rw [e] at this ⊢
      unfold Parted at this ⊢
      rw [List.isChain_cons_cons]
      exact ⟨h, this⟩

theorem parted_joinSegs (A : List (Nat × Nat)) : Parted (joinSegs A) := by
  cases A with
  | nil => simp [joinSegs, Parted]
  | cons a r => exact parted_joinFrom a r

/-- Every dimension has one segment. -/
def Singles (As : List (List (Nat × Nat))) : Bool := As.all (fun A => decide (A.length = 1))

/-- Segments are joined in the last dimensions, up to one that stays divided. -/
def nrm : List (List (Nat × Nat)) → List (List (Nat × Nat))
  | [] => []
  | A :: R => (if Singles (nrm R) then joinSegs A else A) :: nrm R

theorem nrm_length (As : List (List (Nat × Nat))) : (nrm As).length = As.length := by
  induction As with
  | nil => rfl
  | cons A R ih => simp [nrm, ih]

theorem nrm_ok {As : List (List (Nat × Nat))} (h : ∀ A ∈ As, SegsOK A) : ∀ A ∈ nrm As, SegsOK A := by
  induction As with
  | nil => simp [nrm]
  | cons A R ih =>
    intro B hB
    simp only [nrm, List.mem_cons] at hB
    rcases hB with rfl | hB
    · split
      · exact joinSegs_ok (h A (by simp))
      · exact h A (by simp)
    · exact ih (fun B hB => h B (by simp [hB])) B hB

theorem prodL_ne {As : List (List (Nat × Nat))} (h : ∀ A ∈ As, SegsOK A) : prodL As ≠ [] := by
  induction As with
  | nil => simp [prodL]
  | cons A R ih => exact consAll_ne (h A (by simp)).ne (ih (fun B hB => h B (by simp [hB])))

theorem prodL_length (As : List (List (Nat × Nat))) : (prodL As).length = prod (As.map List.length) := by
  induction As with
  | nil => rfl
  | cons A R ih => rw [prodL, consAll_length, ih, List.map_cons, prod_cons]

theorem consAll_nodup {B : List (Nat × Nat)} {X : List CRow} (hB : B.Nodup) (hX : X.Nodup) : (consAll B X).Nodup := by
  induction B with
  | nil => simp [consAll_nil]
  | cons b B ih =>
    rw [List.nodup_cons] at hB
    rw [consAll_cons, List.nodup_append]
    refine ⟨?_, ih hB.2, ?_⟩
    · refine List.Pairwise.map _ ?_ hX
      intro x y hxy e
      apply hxy
      simp only [consSeg, Prod.mk.injEq, List.cons.injEq] at e
      exact Prod.ext e.1.2 e.2.2
    · intro x hx y hy e
      subst e
      obtain ⟨z, _, rfl⟩ := List.mem_map.mp hx
      obtain ⟨b', hb', w, _, e⟩ := mem_consAll.mp hy
      simp only [consSeg, Prod.mk.injEq, List.cons.injEq] at e
      exact hB.1 (by rw [show b = b' from Prod.ext e.1.1 e.2.1]; exact hb')

theorem prodL_nodup {As : List (List (Nat × Nat))} (h : ∀ A ∈ As, SegsOK A) : (prodL As).Nodup := by
  induction As with
  | nil => simp [prodL]
  | cons A R ih => exact consAll_nodup (h A (by simp)).nodup (ih (fun B hB => h B (by simp [hB])))

theorem singles_iff {As : List (List (Nat × Nat))} (h : ∀ A ∈ As, SegsOK A) : Singles As = true ↔ (prodL As).length = 1 := by
  induction As with
  | nil => simp [Singles, prodL]
  | cons A R ih =>
    have ih := ih (fun B hB => h B (by simp [hB]))
    have e : Singles (A :: R) = (decide (A.length = 1) && Singles R) := by simp [Singles]
    rw [e, Bool.and_eq_true, ih, decide_eq_true_eq, prodL, consAll_length]
    constructor
    · rintro ⟨h1, h2⟩; rw [h1, h2]
    · intro h1
      exact ⟨Nat.eq_one_of_mul_eq_one_right h1, Nat.eq_one_of_mul_eq_one_left h1⟩

theorem ends_ne {α : Type} {l : List α} (h : l.Nodup) (hl : l.length ≠ 1) : ∀ x ∈ l.getLast?, ∀ y ∈ l.head?, x ≠ y := by
  intro x hx y hy e
  subst e
  cases l with
  | nil => simp at hy
  | cons a l =>
    simp only [List.head?_cons, Option.mem_def, Option.some.injEq] at hy
    subst hy
    cases l with
    | nil => simp at hl
    | cons b l =>
      rw [List.nodup_cons] at h
      apply h.1
      rw [Option.mem_def, List.getLast?_cons_cons] at hx
      exact List.mem_of_getLast? hx

/-- `merge_blocks` on a product. -/
theorem mergeAllL_prod {As : List (List (Nat × Nat))} (h : ∀ A ∈ As, SegsOK A) :
    mergeAllL false As.length (prodL As) = prodL (nrm As) := by
  induction As with
  | nil => rfl
  | cons A R ih =>
    have hR : ∀ B ∈ R, SegsOK B := fun B hB => h B (by simp [hB])
    have hA := h A (by simp)
    rw [List.length_cons, prodL, mergeAllL_consAll hA.chain _ (prodL_ne hR), ih hR]
    have hs := singles_iff (nrm_ok hR)
    cases hc : Singles (nrm R) with
    | true =>
      rw [hc] at hs
      obtain ⟨y, hy⟩ := List.length_eq_one_iff.mp (hs.mp rfl)
      rw [hy, mergeDimL_one]
      simp [nrm, hc, prodL, hy]
    | false =>
      rw [hc] at hs
      have hl : (prodL (nrm R)).length ≠ 1 := fun e => by simpa using hs.mpr e
      rw [mergeDimL_zero_keep hA.pos (ends_ne (prodL_nodup (nrm_ok hR)) hl)]
      simp [nrm, hc, prodL]

theorem nrm_nrm (As : List (List (Nat × Nat))) : nrm (nrm As) = nrm As := by
  induction As with
  | nil => rfl
  | cons A R ih =>
    simp only [nrm, ih]
    cases Singles (nrm R) with
    | true => simp only [if_true]; rw [joinSegs_parted (parted_joinSegs A)]
    | false => simp

end Verif
