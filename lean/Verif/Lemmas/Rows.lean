import Verif.Lemmas.Cells
import Mathlib.Data.List.Forall2
import Mathlib.Data.List.Chain

namespace Verif
open Spec

/-! ### Blocks given by start and end -/

/-- A block `(start, end)` of a dataspace with `n` dimensions, not empty. -/
structure EndOK (n : Nat) (r : CRow) : Prop where
  len : r.1.length = n
  le : List.Forall₂ (· ≤ ·) r.1 r.2

theorem EndOK.len2 {n : Nat} {r : CRow} (h : EndOK n r) : r.2.length = n := by rw [← h.le.length_eq, h.len]

/-- Counts of a block given by start and end. -/
def cnt (s e : List Nat) : List Nat := List.zipWith (fun s e => e - s + 1) s e

theorem toCount_eq (r : CRow) : toCount r = (r.1, cnt r.1 r.2) := rfl

theorem cnt_length {s e : List Nat} (h : s.length = e.length) : (cnt s e).length = s.length := by
  simp [cnt, h]

theorem cnt_inj {s e e' : List Nat} (h : List.Forall₂ (· ≤ ·) s e) (h' : List.Forall₂ (· ≤ ·) s e') :
    cnt s e = cnt s e' ↔ e = e' := by
  constructor
  · intro he
    induction h generalizing e' with
    | nil => cases h'; rfl
    | cons h1 h2 ih =>
      cases h' with
      | cons h3 h4 =>
        simp only [cnt, List.zipWith_cons_cons, List.cons.injEq] at he
        rw [ih h4 he.2]
        congr 1
        omega
  · intro he; rw [he]

theorem cnt_pos {s e : List Nat} : ∀ c ∈ cnt s e, 1 ≤ c := by
  intro c hc
  obtain ⟨i, hi, rfl⟩ := List.getElem_of_mem hc
  simp [cnt]

theorem lastPos_cnt : ∀ {s e : List Nat}, List.Forall₂ (· ≤ ·) s e → lastPos s (cnt s e) = e := by
  intro s e h
  induction h with
  | nil => rfl
  | cons h1 _ ih =>
    simp only [lastPos, cnt, List.zipWith_cons_cons] at *
    rw [ih]
    congr 1
    omega

theorem canMerge_true : ∀ {d : Nat} {s e s' e' : List Nat}, List.Forall₂ (· ≤ ·) s e → List.Forall₂ (· ≤ ·) s' e' →
    canMerge true d s e s' e' = canMerge false d s (cnt s e) s' (cnt s' e')
  | 0, _, _, _, _, .nil, _ => by simp [canMerge]
  | 0, _, _, _, _, .cons _ _, .nil => by simp [canMerge, cnt]
  | _ + 1, _, _, _, _, .nil, _ => by simp [canMerge]
  | _ + 1, _, _, _, _, .cons _ _, .nil => by simp [canMerge, cnt]
  | 0, s :: ss, e :: es, s' :: ss', e' :: es', .cons h1 h2, .cons h3 h4 => by
    have hc : cnt (s :: ss) (e :: es) = (e - s + 1) :: cnt ss es := rfl
    have hc' : cnt (s' :: ss') (e' :: es') = (e' - s' + 1) :: cnt ss' es' := rfl
    rw [hc, hc']
    simp only [canMerge, follows, if_true, Bool.false_eq_true, if_false]
    congr 1
    · apply decide_eq_decide.mpr; omega
    · apply decide_eq_decide.mpr
      constructor
      · rintro ⟨rfl, rfl⟩; exact ⟨rfl, rfl⟩
      · rintro ⟨rfl, h⟩; exact ⟨rfl, (cnt_inj h4 h2).mp h⟩
  | d + 1, s :: ss, e :: es, s' :: ss', e' :: es', .cons h1 h2, .cons h3 h4 => by
    have hc : cnt (s :: ss) (e :: es) = (e - s + 1) :: cnt ss es := rfl
    have hc' : cnt (s' :: ss') (e' :: es') = (e' - s' + 1) :: cnt ss' es' := rfl
    rw [hc, hc']
    simp only [canMerge]
    rw [canMerge_true h2 h4]
    congr 1
    apply decide_eq_decide.mpr; omega

theorem mergeCount_true : ∀ {d : Nat} {s e s' e' : List Nat}, List.Forall₂ (· ≤ ·) s e → List.Forall₂ (· ≤ ·) s' e' →
    canMerge true d s e s' e' = true →
    mergeCount true d e e' = e' ∧ List.Forall₂ (· ≤ ·) s e' ∧ cnt s e' = mergeCount false d (cnt s e) (cnt s' e')
  | 0, _, _, _, _, .nil, _, h => by simp [canMerge] at h
  | 0, _, _, _, _, .cons _ _, .nil, h => by simp [canMerge] at h
  | _ + 1, _, _, _, _, .nil, _, h => by simp [canMerge] at h
  | _ + 1, _, _, _, _, .cons _ _, .nil, h => by simp [canMerge] at h
  | 0, s :: ss, e :: es, s' :: ss', e' :: es', .cons h1 h2, .cons h3 h4, h => by
    simp only [canMerge, follows, if_true, Bool.and_eq_true, decide_eq_true_eq] at h
    obtain ⟨h5, rfl, rfl⟩ := h
    refine ⟨by simp [mergeCount], .cons (by omega) h2, ?_⟩
    simp only [cnt, List.zipWith_cons_cons, mergeCount, Bool.false_eq_true, if_false, List.cons.injEq, and_true]
    omega
  | d + 1, s :: ss, e :: es, s' :: ss', e' :: es', .cons h1 h2, .cons h3 h4, h => by
    simp only [canMerge, Bool.and_eq_true, decide_eq_true_eq] at h
    obtain ⟨⟨rfl, rfl⟩, h5⟩ := h
    obtain ⟨i1, i2, i3⟩ := mergeCount_true h2 h4 h5
    refine ⟨by simp [mergeCount, i1], .cons h1 i2, ?_⟩
    simp only [cnt, List.zipWith_cons_cons, mergeCount] at *
    rw [i3]

/-- `merge_blocks<true>` is `merge_blocks<false>` on counts; starts and ends of the result are among those of the
input, in the same order. -/
theorem mergeL_true {n d : Nat} : ∀ (x : CRow) (r : List CRow), (∀ y ∈ x :: r, EndOK n y) →
    (mergeL true d x r).map toCount = mergeL false d (toCount x) (r.map toCount) ∧
    (∀ y ∈ mergeL true d x r, EndOK n y) ∧
    List.Sublist ((mergeL true d x r).map Prod.fst) ((x :: r).map Prod.fst) ∧
    List.Sublist ((mergeL true d x r).map Prod.snd) ((x :: r).map Prod.snd)
  | x, [], h => ⟨by simp [mergeL], by simpa [mergeL] using h, by simp [mergeL], by simp [mergeL]⟩
  | x, y :: r, h => by
    have hx := h x (by simp)
    have hy := h y (by simp)
    have hr : ∀ z ∈ r, EndOK n z := fun z hz => h z (by simp [hz])
    have hc := canMerge_true (d := d) hx.le hy.le
    rw [List.map_cons (l := r)]
    by_cases hm : canMerge true d x.1 x.2 y.1 y.2 = true
    · obtain ⟨m1, m2, m3⟩ := mergeCount_true hx.le hy.le hm
      have hm' : canMerge false d (toCount x).1 (toCount x).2 (toCount y).1 (toCount y).2 = true := by
        rw [toCount_eq, toCount_eq, ← hc]; exact hm
      rw [mergeL, mergeL, if_pos hm, if_pos hm', m1]
      obtain ⟨i1, i2, i3, i4⟩ := mergeL_true (n := n) (d := d) (x.1, y.2) r (by
        intro z hz
        rcases List.mem_cons.mp hz with rfl | hz
        · exact ⟨hx.len, m2⟩
        · exact hr z hz)
      refine ⟨?_, i2, ?_, ?_⟩
      · rw [i1]
        congr 1
        simp only [toCount_eq]
        rw [m3]
      · refine i3.trans ?_
        simp only [List.map_cons]
        exact List.Sublist.cons_cons _ (List.sublist_cons_self _ _)
      · refine i4.trans ?_
        simp only [List.map_cons]
        exact List.sublist_cons_self _ _
    · have hm' : ¬ canMerge false d (toCount x).1 (toCount x).2 (toCount y).1 (toCount y).2 = true := by
        rw [toCount_eq, toCount_eq, ← hc]; exact hm
      rw [mergeL, mergeL, if_neg hm, if_neg hm']
      obtain ⟨i1, i2, i3, i4⟩ := mergeL_true (n := n) (d := d) y r (by
        intro z hz
        rcases List.mem_cons.mp hz with rfl | hz
        · exact hy
        · exact hr z hz)
      refine ⟨by rw [List.map_cons, i1], ?_, ?_, ?_⟩
      · intro z hz
        rcases List.mem_cons.mp hz with rfl | hz
        · exact hx
        · exact i2 z hz
      · simp only [List.map_cons] at *
        exact i3.cons_cons _
      · simp only [List.map_cons] at *
        exact i4.cons_cons _

theorem mergeAllL_true {n : Nat} : ∀ (nd : Nat) (l : List CRow), (∀ y ∈ l, EndOK n y) →
    (mergeAllL true nd l).map toCount = mergeAllL false nd (l.map toCount) ∧
    (∀ y ∈ mergeAllL true nd l, EndOK n y) ∧
    List.Sublist ((mergeAllL true nd l).map Prod.fst) (l.map Prod.fst) ∧
    List.Sublist ((mergeAllL true nd l).map Prod.snd) (l.map Prod.snd)
  | 0, l, h => ⟨rfl, h, List.Sublist.refl _, List.Sublist.refl _⟩
  | nd + 1, l, h => by
    have h1 : (mergeDimL true nd l).map toCount = mergeDimL false nd (l.map toCount) ∧
        (∀ y ∈ mergeDimL true nd l, EndOK n y) ∧
        List.Sublist ((mergeDimL true nd l).map Prod.fst) (l.map Prod.fst) ∧
        List.Sublist ((mergeDimL true nd l).map Prod.snd) (l.map Prod.snd) := by
      cases l with
      | nil => simp [mergeDimL]
      | cons x r => exact mergeL_true x r h
    obtain ⟨i1, i2, i3, i4⟩ := mergeAllL_true nd (mergeDimL true nd l) h1.2.1
    unfold mergeAllL
    exact ⟨by rw [i1, h1.1], i2, i3.trans h1.2.2.1, i4.trans h1.2.2.2⟩

theorem mergeAllL_ne {u : Bool} : ∀ (nd : Nat) {l : List CRow}, l ≠ [] → mergeAllL u nd l ≠ []
  | 0, _, h => h
  | nd + 1, _, h => mergeAllL_ne nd (mergeDimL_ne h)

/-! ### Breaking blocks into rows -/

theorem chain_flatMap {α : Type} {R : α → α → Prop} (f : Nat → List α) (n : Nat)
    (h1 : ∀ k, k < n → (f k).IsChain R) (hne : ∀ k, k < n → f k ≠ [])
    (h2 : ∀ k, k + 1 < n → ∀ x ∈ (f k).getLast?, ∀ y ∈ (f (k + 1)).head?, R x y) :
    ((List.range n).flatMap f).IsChain R ∧
      (0 < n → ((List.range n).flatMap f).getLast? = (f (n - 1)).getLast? ∧
        ((List.range n).flatMap f).head? = (f 0).head?) := by
  induction n with
  | zero => simp
  | succ n ih =>
    obtain ⟨i1, i2⟩ := ih (fun k hk => h1 k (by omega)) (fun k hk => hne k (by omega)) (fun k hk => h2 k (by omega))
    rw [List.range_succ, List.flatMap_append, List.flatMap_singleton]
    have hn := hne n (by omega)
    constructor
    · rw [List.isChain_append]
      refine ⟨i1, h1 n (by omega), ?_⟩
      intro x hx y hy
      cases n with
      | zero => simp at hx
      | succ n =>
        rw [(i2 (by omega)).1] at hx
        exact h2 n (by omega) x hx y hy
    · intro _
      constructor
      · rw [List.getLast?_append]
        simp only [Nat.add_sub_cancel]
        cases hl : (f n).getLast? with
        | none => exact absurd (List.getLast?_eq_none_iff.mp hl) hn
        | some v => simp
      · cases n with
        | zero => simp
        | succ n =>
          rw [List.head?_append, (i2 (by omega)).2]
          cases hh : (f 0).head? with
          | none => exact absurd (List.head?_eq_none_iff.mp hh) (hne 0 (by omega))
          | some v => simp

theorem cells_ne {s e : List Nat} : cells s (cnt s e) ≠ [] := by
  induction s generalizing e with
  | nil => simp [cnt, cells, boxIdx]
  | cons s ss ih =>
    cases e with
    | nil => simp [cnt, cells, boxIdx]
    | cons e es =>
      have : cnt (s :: ss) (e :: es) = (e - s + 1) :: cnt ss es := rfl
      rw [this, cells_cons, List.range_succ_eq_map]
      simp [ih]

/-- The cells of a block in order: each one is obtained from the previous one by the increment with carry. -/
theorem bump_chain : ∀ {s e : List Nat}, List.Forall₂ (· ≤ ·) s e →
    (cells s (cnt s e)).IsChain (fun u v => bumpCarry s e u = (v, false)) ∧
    (cells s (cnt s e)).head? = some s ∧ (cells s (cnt s e)).getLast? = some e ∧ bumpCarry s e e = (s, true) := by
  intro s e h
  induction h with
  | nil => simp [cnt, bumpCarry]
  | @cons s e ss es h1 _ ih =>
    obtain ⟨i1, i2, i3, i4⟩ := ih
    have hc : cnt (s :: ss) (e :: es) = (e - s + 1) :: cnt ss es := rfl
    rw [hc, cells_cons]
    obtain ⟨j1, j2⟩ := chain_flatMap (R := fun u v => bumpCarry (s :: ss) (e :: es) u = (v, false))
      (fun x => (cells ss (cnt ss es)).map (fun y => (s + x) :: y)) (e - s + 1) (by
        intro k _
        rw [List.isChain_map]
        refine i1.imp ?_
        intro a b hab
        simp only [bumpCarry, hab, Bool.false_eq_true, if_false]) (by
        intro k _
        simp [cells_ne]) (by
        intro k hk x hx y hy
        simp only [List.getLast?_map, i3, Option.map_some, Option.mem_some_iff, List.head?_map, i2] at hx hy
        subst hx; subst hy
        simp only [bumpCarry, i4, if_true]
        rw [if_neg (by omega)]
        rfl)
    obtain ⟨j3, j4⟩ := j2 (by omega)
    refine ⟨j1, ?_, ?_, ?_⟩
    · rw [j4]; simp [i2]
    · rw [j3]; simp [i3]; omega
    · simp only [bumpCarry, i4, if_true]
      rw [if_pos (by omega)]

theorem bump_eq : ∀ {s e u v : List Nat}, s ≠ [] → bumpCarry s e u = (v, false) → bump s e u = v
  | s :: ss, e :: es, x :: xs, v, _, h => by
    simp only [bumpCarry] at h
    simp only [bump]
    by_cases hc : (bumpCarry ss es xs).2 = true
    · rw [if_pos hc] at h ⊢
      by_cases hx : e < x + 1
      · rw [if_pos hx] at h; simp at h
      · rw [if_neg hx] at h
        exact congrArg Prod.fst h
    · rw [if_neg hc] at h ⊢
      exact congrArg Prod.fst h
  | [], _, _, _, h, _ => absurd rfl h
  | _ :: _, [], _, _, _, h => by simp [bumpCarry] at h
  | _ :: _, _ :: _, [], _, _, h => by simp [bumpCarry] at h

theorem unfinished_self : ∀ e : List Nat, unfinished e e = false
  | [] => rfl
  | e :: es => by simp [unfinished, unfinished_self es]

theorem unfinished_of_ne : ∀ {s e x : List Nat}, inBox s (cnt s e) x = true → List.Forall₂ (· ≤ ·) s e → x ≠ e →
    unfinished x e = true
  | [], _, [], _, .nil, hne => absurd rfl hne
  | s :: ss, e :: es, x :: xs, h, .cons h1 h2, hne => by
    have hc : cnt (s :: ss) (e :: es) = (e - s + 1) :: cnt ss es := rfl
    rw [hc] at h
    simp only [inBox, Bool.and_eq_true, decide_eq_true_eq] at h
    simp only [unfinished, Bool.or_eq_true, decide_eq_true_eq]
    by_cases hx : x < e
    · exact .inl hx
    · right
      apply unfinished_of_ne h.2 h2
      intro he
      apply hne
      rw [he]
      congr 1
      omega
  | [], _, _ :: _, h, .nil, _ => by simp [inBox, cnt] at h
  | _ :: _, _, [], h, .cons _ _, _ => by simp [inBox, cnt] at h

theorem rowStarts_chain {s e : List Nat} (hle : List.Forall₂ (· ≤ ·) s e) : ∀ (l : List (List Nat)) (x : List Nat) (f : Nat),
    (x :: l).length ≤ f → (x :: l).IsChain (fun u v => bumpCarry s e u = (v, false)) →
    (∀ y ∈ x :: l, inBox s (cnt s e) y = true) → (x :: l).getLast? = some e →
    rowStarts s e f x = .ok (x :: l) := by
  intro l
  induction l with
  | nil =>
    intro x f hf _ _ hlast
    obtain ⟨f, rfl⟩ : ∃ g, f = g + 1 := ⟨f - 1, by simp at hf; omega⟩
    have : x = e := by simpa using hlast
    subst this
    simp [rowStarts, unfinished_self]
  | cons y l ih =>
    intro x f hf hch hin hlast
    obtain ⟨f, rfl⟩ : ∃ g, f = g + 1 := ⟨f - 1, by simp at hf; omega⟩
    have hxy : bumpCarry s e x = (y, false) := by
      rw [List.isChain_cons_cons] at hch; exact hch.1
    have hne : x ≠ e := by
      intro he
      have := (bump_chain hle).2.2.2
      rw [he] at hxy
      rw [hxy] at this
      simp at this
    have hsne : s ≠ [] := by
      intro hs
      subst hs
      cases hle
      have h1 := hin x (by simp)
      cases x with
      | nil => exact hne rfl
      | cons a b => simp [inBox, cnt] at h1
    unfold rowStarts
    rw [if_pos (unfinished_of_ne (hin x (by simp)) hle hne), bump_eq hsne hxy]
    rw [ih y f (by simp at hf ⊢; omega) (by rw [List.isChain_cons_cons] at hch; exact hch.2)
      (fun z hz => hin z (by simp [hz])) (by simpa using hlast)]
    rfl

theorem cells_length : ∀ {s c : List Nat}, s.length = c.length → (cells s c).length = prod c := by
  intro s c h
  simp only [cells, List.length_map]
  clear h
  induction c with
  | nil => rfl
  | cons c cs ih =>
    simp only [boxIdx, List.length_flatMap, List.length_map, ih, prod_cons]
    simp

theorem rowStarts_ok {s e : List Nat} (h : List.Forall₂ (· ≤ ·) s e) :
    rowStarts s e (prod (cnt s e)) s = .ok (cells s (cnt s e)) := by
  obtain ⟨h1, h2, h3, _⟩ := bump_chain h
  have hlen : s.length = (cnt s e).length := (cnt_length h.length_eq).symm
  have hl := cells_length hlen
  have hm : ∀ y ∈ cells s (cnt s e), inBox s (cnt s e) y = true := fun y hy => (mem_cells hlen).mp hy
  cases hc : cells s (cnt s e) with
  | nil => exact absurd hc cells_ne
  | cons x l =>
    rw [hc] at h1 h2 h3 hl hm
    have : x = s := by simpa using h2
    subst this
    exact rowStarts_chain h l x _ (by omega) h1 hm h3

/-- Rows of a block. -/
def rowsOf (r : CRow) : List CRow :=
  (cells r.1.dropLast (cnt r.1.dropLast r.2.dropLast)).map (fun x => (x ++ [r.1.getLastD 0],
    List.replicate (r.1.length - 1) 1 ++ [r.2.getLastD 0 - r.1.getLastD 0 + 1]))

theorem forall₂_dropLast : ∀ {s e : List Nat}, List.Forall₂ (· ≤ ·) s e → List.Forall₂ (· ≤ ·) s.dropLast e.dropLast := by
  intro s e h
  induction h with
  | nil => exact .nil
  | cons h1 h2 ih =>
    cases h2 with
    | nil => exact .nil
    | cons h3 h4 =>
      simp only [List.dropLast_cons_cons]
      exact .cons h1 ih

theorem breakRow_ok {n : Nat} {r : CRow} (h : EndOK n r) : breakRow r = .ok (rowsOf r) := by
  unfold breakRow rowCount
  have := rowStarts_ok (forall₂_dropLast h.le)
  unfold cnt at this
  rw [this]
  rfl

theorem breakRows_ok {n : Nat} : ∀ {g : List CRow}, (∀ r ∈ g, EndOK n r) → breakRows g = .ok (g.flatMap rowsOf)
  | [], _ => rfl
  | r :: g, h => by
    unfold breakRows
    rw [breakRow_ok (h r (by simp)), breakRows_ok (fun x hx => h x (by simp [hx]))]
    rfl

theorem cells_append_last : ∀ {s c : List Nat}, s.length = c.length → ∀ (x k : Nat),
    cells (s ++ [x]) (c ++ [k]) =
      (cells s c).flatMap (fun y => cells (y ++ [x]) (List.replicate s.length 1 ++ [k]))
  | [], [], _, x, k => by simp
  | s :: ss, c :: cs, h, x, k => by
    have ih := cells_append_last (s := ss) (c := cs) (by simpa using h) x k
    rw [List.cons_append, List.cons_append, cells_cons, cells_cons, ih, List.flatMap_assoc]
    apply List.flatMap_congr
    intro a _
    rw [List.flatMap_map, List.map_flatMap]
    apply List.flatMap_congr
    intro y _
    simp only [List.cons_append, List.length_cons, List.replicate_succ]
    rw [cells_cons]
    simp
  | [], _ :: _, h, _, _ => by simp at h
  | _ :: _, [], h, _, _ => by simp at h

theorem cnt_append_last {s e : List Nat} (h : s.length = e.length) (x y : Nat) :
    cnt (s ++ [x]) (e ++ [y]) = cnt s e ++ [y - x + 1] := by
  unfold cnt
  rw [List.zipWith_append h]
  rfl

theorem split_last {n : Nat} {r : CRow} (hn : 0 < n) (h : EndOK n r) : ∃ s e x y, r = (s ++ [x], e ++ [y]) ∧
    s.length = e.length ∧ s.length = n - 1 ∧ List.Forall₂ (· ≤ ·) s e ∧ x ≤ y := by
  obtain ⟨a, b⟩ := r
  obtain ⟨h1, h2⟩ := h
  rcases List.eq_nil_or_concat a with rfl | ⟨s, x, rfl⟩
  · simp at h1; omega
  · rcases List.eq_nil_or_concat b with rfl | ⟨e, y, rfl⟩
    · have := h2.length_eq; simp at this
    · have hl : s.length = e.length := by have := h2.length_eq; simpa using this
      refine ⟨s, e, x, y, by simp, hl, by simp at h1; omega, ?_, ?_⟩
      · have := forall₂_dropLast h2
        simpa using this
      · have := h2.get (i := s.length) (by simp) (by simp [hl])
        simpa [hl] using this

/-- The rows of a block contain its cells in the same order. -/
theorem rowsOf_cells {n : Nat} {r : CRow} (hn : 0 < n) (h : EndOK n r) : cellsL (rowsOf r) = cellsR (toCount r) := by
  obtain ⟨s, e, x, y, rfl, hl, _, _, _⟩ := split_last hn h
  have e1 : (s ++ [x]).getLastD 0 = x := by simp [List.getLastD_eq_getLast?]
  have e2 : (e ++ [y]).getLastD 0 = y := by simp [List.getLastD_eq_getLast?]
  have e3 : (s ++ [x]).length - 1 = s.length := by simp
  simp only [rowsOf, List.dropLast_concat, e1, e2, e3, cellsL, toCount_eq, cellsR]
  rw [cnt_append_last hl, cells_append_last (by rw [cnt_length hl]), List.flatMap_map]
  rfl

/-- A row: one element in all dimensions but the last one. -/
structure LineOK (n : Nat) (r : CRow) : Prop where
  len : r.1.length = n
  len2 : r.2.length = n
  ones : OnesTo (n - 1) r.2
  pos : ∀ c ∈ r.2, 1 ≤ c

theorem onesTo_replicate : ∀ (k : Nat) (l : List Nat), OnesTo k (List.replicate k 1 ++ l)
  | 0, _ => trivial
  | k + 1, l => ⟨rfl, onesTo_replicate k l⟩

theorem cells_mem_length {s c x : List Nat} (hl : s.length = c.length) (h : x ∈ cells s c) : x.length = s.length :=
  (inBox_length ((mem_cells hl).mp h)).1.symm

theorem rowsOf_ok {n : Nat} {r : CRow} (hn : 0 < n) (h : EndOK n r) : ∀ q ∈ rowsOf r, LineOK n q := by
  obtain ⟨s, e, x, y, rfl, hl, hl2, _, _⟩ := split_last hn h
  intro q hq
  have e3 : (s ++ [x]).length - 1 = s.length := by simp
  simp only [rowsOf, List.dropLast_concat, e3, List.mem_map] at hq
  obtain ⟨u, hu, rfl⟩ := hq
  have hlu : u.length = s.length := cells_mem_length (by rw [cnt_length hl]) hu
  refine ⟨by simp; omega, by simp; omega, ?_, ?_⟩
  · simp only
    rw [hl2]
    exact onesTo_replicate _ _
  · intro c hc
    simp only [List.mem_append, List.mem_replicate, List.mem_singleton] at hc
    rcases hc with ⟨_, rfl⟩ | rfl <;> omega

end Verif
