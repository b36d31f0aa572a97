import Verif.Lemmas.SelTop

/-
Hyperslabs whose lines consist of several separate segments: no rows are merged.
-/

namespace Verif
open Spec

/-! ### Nothing to merge -/

/-- The blocks cannot be merged in any dimension. -/
def NoMerge (u : Bool) (x y : CRow) : Prop := ∀ d, canMerge u d x.1 x.2 y.1 y.2 = false

theorem mergeL_none {u : Bool} {d : Nat} : ∀ {x : CRow} {r : List CRow}, (x :: r).IsChain (NoMerge u) → mergeL u d x r = x :: r
  | _, [], _ => rfl
  | x, y :: r, h => by
    rw [List.isChain_cons_cons] at h
    unfold mergeL
    rw [if_neg (by rw [h.1 d]; simp), mergeL_none h.2]

theorem mergeAllL_none {u : Bool} : ∀ (n : Nat) {l : List CRow}, l.IsChain (NoMerge u) → mergeAllL u n l = l
  | 0, _, _ => rfl
  | n + 1, l, h => by
    have : mergeDimL u n l = l := by
      cases l with
      | nil => rfl
      | cons x r => exact mergeL_none h
    unfold mergeAllL
    rw [this]
    exact mergeAllL_none n h

theorem canMerge_last {u : Bool} {v e v' e' : Nat} : ∀ {d : Nat} {s c s' c' : List Nat}, c.length = s.length →
    s'.length = s.length → c'.length = s.length →
    canMerge u d (s ++ [v]) (c ++ [e]) (s' ++ [v']) (c' ++ [e']) = true →
    (v' = v ∧ e' = e) ∨ (s' = s ∧ c' = c ∧ follows u v e v' = true)
  | 0, [], [], [], [], _, _, _, h => by
    simp only [List.nil_append, canMerge, Bool.and_eq_true] at h
    exact .inr ⟨rfl, rfl, h.1⟩
  | d + 1, [], [], [], [], _, _, _, h => by
    exfalso
    simp only [List.nil_append, canMerge, Bool.and_eq_true] at h
    have := h.2
    cases d <;> simp at this
  | 0, s :: ss, c :: cs, s' :: ss', c' :: cs', h1, h2, h3, h => by
    simp only [List.cons_append, canMerge, Bool.and_eq_true, decide_eq_true_eq] at h
    obtain ⟨_, h4, h5⟩ := h
    have h6 := List.append_inj' h4 rfl
    have h7 := List.append_inj' h5 rfl
    exact .inl ⟨by simpa using h6.2, by simpa using h7.2⟩
  | d + 1, s :: ss, c :: cs, s' :: ss', c' :: cs', h1, h2, h3, h => by
    simp only [List.cons_append, canMerge, Bool.and_eq_true, decide_eq_true_eq] at h
    obtain ⟨⟨rfl, rfl⟩, h4⟩ := h
    rcases canMerge_last (by simpa using h1) (by simpa using h2) (by simpa using h3) h4 with h | ⟨rfl, rfl, h⟩
    · exact .inl h
    · exact .inr ⟨rfl, rfl, h⟩
  | _, [], _ :: _, _, _, h, _, _, _ => by simp at h
  | _, [], [], _ :: _, _, _, h, _, _ => by simp at h
  | _, [], [], [], _ :: _, _, _, h, _ => by simp at h
  | _, _ :: _, [], _, _, h, _, _, _ => by simp at h
  | _, _ :: _, _ :: _, [], _, _, h, _, _ => by simp at h
  | _, _ :: _, _ :: _, _ :: _, [], _, _, h, _ => by simp at h

theorem canMerge_top {u : Bool} {v e v' e' : Nat} : ∀ {m : Nat} {s c s' c' : List Nat}, s.length = m → c.length = m →
    s'.length = m → c'.length = m → canMerge u m (s ++ [v]) (c ++ [e]) (s' ++ [v']) (c' ++ [e']) = true →
    follows u v e v' = true
  | 0, s, c, s', c', h1, h2, h3, h4, h => by
    rw [List.length_eq_zero_iff] at h1 h2 h3 h4
    subst h1 h2 h3 h4
    simpa [canMerge] using h
  | m + 1, s :: ss, c :: cs, s' :: ss', c' :: cs', h1, h2, h3, h4, h => by
    simp only [List.cons_append, canMerge, Bool.and_eq_true] at h
    exact canMerge_top (by simpa using h1) (by simpa using h2) (by simpa using h3) (by simpa using h4) h.2
  | _ + 1, [], _, _, _, h, _, _, _, _ => by simp at h
  | _ + 1, _ :: _, [], _, _, _, h, _, _, _ => by simp at h
  | _ + 1, _ :: _, _ :: _, [], _, _, _, h, _, _ => by simp at h
  | _ + 1, _ :: _, _ :: _, _ :: _, [], _, _, _, h, _ => by simp at h

/-- A block that continues another one comes later. -/
theorem canMerge_lt : ∀ {d : Nat} {s c s' c' : List Nat}, (∀ k ∈ c, 1 ≤ k) → canMerge false d s c s' c' = true → RowLt s s'
  | 0, s :: ss, c :: cs, s' :: ss', _ :: cs', hp, h => by
    simp only [canMerge, follows, Bool.and_eq_true] at h
    have h1 : s + c = s' := by simpa using h.1
    have := hp c (by simp)
    exact .inl (by omega)
  | d + 1, s :: ss, c :: cs, s' :: ss', c' :: cs', hp, h => by
    simp only [canMerge, Bool.and_eq_true, decide_eq_true_eq] at h
    exact .inr ⟨h.1.1.symm, canMerge_lt (fun k hk => hp k (by simp [hk])) h.2⟩
  | 0, [], _, _, _, _, h => by simp [canMerge] at h
  | 0, _ :: _, [], _, _, _, h => by simp [canMerge] at h
  | 0, _ :: _, _ :: _, [], _, _, h => by simp [canMerge] at h
  | 0, _ :: _, _ :: _, _ :: _, [], _, h => by simp [canMerge] at h
  | _ + 1, [], _, _, _, _, h => by simp [canMerge] at h
  | _ + 1, _ :: _, [], _, _, _, h => by simp [canMerge] at h
  | _ + 1, _ :: _, _ :: _, [], _, _, h => by simp [canMerge] at h
  | _ + 1, _ :: _, _ :: _, _ :: _, [], _, h => by simp [canMerge] at h

theorem rowLt_append_same {p : List Nat} {v w : Nat} (h : v < w) : RowLt (p ++ [v]) (p ++ [w]) := by
  induction p with
  | nil => exact .inl h
  | cons a p ih => exact .inr ⟨rfl, ih⟩

theorem rowLt_append {p q : List Nat} (h : RowLt p q) (a b : List Nat) : RowLt (p ++ a) (q ++ b) := by
  induction p generalizing q with
  | nil => simp [RowLt] at h
  | cons x p ih =>
    cases q with
    | nil => simp [RowLt] at h
    | cons y q =>
      simp only [RowLt] at h
      rcases h with h | ⟨rfl, h⟩
      · exact .inl h
      · exact .inr ⟨rfl, ih h⟩

theorem rowLt_prefix {p q : List Nat} {v : Nat} (hl : p.length = q.length) (h : RowLt (p ++ [v]) (q ++ [v])) : RowLt p q := by
  induction p generalizing q with
  | nil =>
    cases q with
    | nil => simp [RowLt] at h
    | cons y q => simp at hl
  | cons x p ih =>
    cases q with
    | nil => simp at hl
    | cons y q =>
      simp only [List.cons_append, RowLt] at h
      rcases h with h | ⟨rfl, h⟩
      · exact .inl h
      · exact .inr ⟨rfl, ih (by simpa using hl) h⟩

/-! ### Products of outer blocks and segments of the last dimension -/

/-- A block of the outer dimensions with a segment of the last one. -/
def withSeg (r : CRow) (a : Nat × Nat) : CRow := (r.1 ++ [a.1], r.2 ++ [a.2])

/-- All outer blocks with all segments. -/
def segBlocks (outer : List CRow) (L : List (Nat × Nat)) : List CRow := outer.flatMap (fun r => L.map (withSeg r))

/-- At least two segments, in order and not adjacent. -/
structure Segs (L : List (Nat × Nat)) : Prop where
  le : ∀ a ∈ L, a.1 ≤ a.2
  gap : L.Pairwise (fun a b => a.2 + 1 < b.1)
  two : 2 ≤ L.length

theorem Segs.apart {L : List (Nat × Nat)} (h : Segs L) {a b : Nat × Nat} (ha : a ∈ L) (hb : b ∈ L) : a.2 + 1 ≠ b.1 := by
  obtain ⟨i, hi, rfl⟩ := List.getElem_of_mem ha
  obtain ⟨j, hj, rfl⟩ := List.getElem_of_mem hb
  rcases Nat.lt_trichotomy i j with hij | rfl | hij
  · have := List.pairwise_iff_getElem.mp h.gap i j hi hj hij
    omega
  · have := h.le _ ha
    omega
  · have := List.pairwise_iff_getElem.mp h.gap j i hj hi hij
    have := h.le _ ha
    have := h.le _ hb
    omega

theorem Segs.other {L : List (Nat × Nat)} (h : Segs L) (a : Nat × Nat) : ∃ b ∈ L, b.1 ≠ a.1 := by
  have h2 := h.two
  have h3 := List.pairwise_iff_getElem.mp h.gap 0 1 (by omega) (by omega) (by omega)
  have h4 := h.le _ (List.getElem_mem (show 0 < L.length by omega))
  by_cases e : L[0].1 = a.1
  · exact ⟨L[1], List.getElem_mem _, by omega⟩
  · exact ⟨L[0], List.getElem_mem _, e⟩

theorem withSeg_noMerge {m : Nat} {r r' : CRow} (h : EndOK m r) (h' : EndOK m r') {a b : Nat × Nat} (h1 : a.1 ≠ b.1)
    (h2 : a.2 + 1 ≠ b.1) : NoMerge true (withSeg r a) (withSeg r' b) := by
  intro d
  rw [← Bool.not_eq_true]
  intro hm
  rcases canMerge_last (by rw [h.len2, h.len]) (by rw [h'.len, h.len]) (by rw [h'.len2, h.len]) hm with h3 | ⟨_, _, h3⟩
  · exact h1 h3.1.symm
  · simp only [follows, if_true, decide_eq_true_eq] at h3
    exact h2 h3

theorem segBlocks_chain {m : Nat} {L : List (Nat × Nat)} (hL : Segs L) : ∀ {outer : List CRow}, (∀ r ∈ outer, EndOK m r) →
    (segBlocks outer L).IsChain (NoMerge true)
  | [], _ => by simp [segBlocks]
  | r :: o, h => by
    have ih := segBlocks_chain hL (outer := o) (fun x hx => h x (by simp [hx]))
    have e : segBlocks (r :: o) L = L.map (withSeg r) ++ segBlocks o L := List.flatMap_cons
    rw [e, List.isChain_append]
    refine ⟨?_, ih, ?_⟩
    · rw [List.isChain_map]
      refine (List.Pairwise.isChain hL.gap).imp_of_mem_imp ?_
      intro a b ha hb hab
      have := hL.le a ha
      exact withSeg_noMerge (h r (by simp)) (h r (by simp)) (by omega) (by omega)
    · intro x hx y hy
      cases o with
      | nil => simp [segBlocks] at hy
      | cons r' o' =>
        have h2 := hL.two
        have e' : segBlocks (r' :: o') L = L.map (withSeg r') ++ segBlocks o' L := List.flatMap_cons
        rw [e'] at hy
        have hne : L ≠ [] := by intro h0; rw [h0] at h2; simp at h2
        rw [List.head?_append, List.head?_map, List.head?_eq_getElem?, List.getElem?_eq_getElem (show 0 < L.length by omega)] at hy
        rw [List.getLast?_map, List.getLast?_eq_getElem?, List.getElem?_eq_getElem (show L.length - 1 < L.length by omega)] at hx
        simp only [Option.map_some, Option.some_or, Option.mem_def, Option.some.injEq] at hx hy
        subst hx hy
        have h3 := List.pairwise_iff_getElem.mp hL.gap 0 (L.length - 1) (by omega) (by omega) (by omega)
        have h4 := hL.le _ (List.getElem_mem (show 0 < L.length by omega))
        have h5 := hL.le _ (List.getElem_mem (show L.length - 1 < L.length by omega))
        exact withSeg_noMerge (h r (by simp)) (h r' (by simp)) (by omega) (by omega)

/-! ### Groups -/

theorem groupFrom_run {rest : List CRow} : ∀ {x : CRow} {as : List CRow},
    (x :: as).IsChain (fun a b => lexLt a.2 b.1 = false) →
    (rest = [] ∧ groupFrom x (as ++ rest) = [x :: as]) ∨
    ∃ y r', rest = y :: r' ∧ (groupFrom x (as ++ rest) = (x :: as) :: groupFrom y r' ∨
      ∃ h t, groupFrom y r' = h :: t ∧ groupFrom x (as ++ rest) = (x :: as ++ h) :: t)
  | x, [], _ => by
    cases rest with
    | nil => exact .inl ⟨rfl, rfl⟩
    | cons y r' =>
      refine .inr ⟨y, r', rfl, ?_⟩
      rw [List.nil_append, groupFrom]
      split
      · exact .inl rfl
      · obtain ⟨g, t, e⟩ := groupFrom_cons y r'
        refine .inr ⟨_, _, e, ?_⟩
        rw [e]
        rfl
  | x, z :: as, hc => by
    rw [List.isChain_cons_cons] at hc
    have hstep : groupFrom x (z :: as ++ rest) =
        (x :: (groupFrom z (as ++ rest)).headD []) :: (groupFrom z (as ++ rest)).tail := by
      rw [List.cons_append, groupFrom, if_neg (by rw [hc.1]; simp)]
    rw [hstep]
    rcases groupFrom_run (rest := rest) hc.2 with ⟨h1, h2⟩ | ⟨y, r', h1, h2 | ⟨h, t, h2, h3⟩⟩
    · refine .inl ⟨h1, ?_⟩
      rw [h2]
      rfl
    · refine .inr ⟨y, r', h1, .inl ?_⟩
      rw [h2]
      rfl
    · refine .inr ⟨y, r', h1, .inr ⟨h, t, h2, ?_⟩⟩
      rw [h3]
      rfl

theorem rowLt_of_le_ne : ∀ {s e : List Nat}, List.Forall₂ (· ≤ ·) s e → s ≠ e → RowLt s e
  | [], [], _, h => absurd rfl h
  | s :: ss, e :: es, .cons h1 h2, h => by
    by_cases hse : s = e
    · subst hse
      exact .inr ⟨rfl, rowLt_of_le_ne h2 (fun h3 => h (by rw [h3]))⟩
    · exact .inl (by omega)

theorem segBlocks_groups {m : Nat} {L : List (Nat × Nat)} (hL : Segs L) : ∀ {outer : List CRow}, (∀ r ∈ outer, EndOK m r) →
    (∀ r ∈ outer, r.1 ≠ r.2) →
    ∀ g ∈ groupRows (segBlocks outer L), ∃ o, g = segBlocks o L ∧ ∀ r ∈ o, r ∈ outer
  | [], _, _ => by simp [segBlocks, groupRows]
  | r :: o, h, hi => by
    have ih := segBlocks_groups hL (outer := o) (fun x hx => h x (by simp [hx])) (fun x hx => hi x (by simp [hx]))
    have e : segBlocks (r :: o) L = L.map (withSeg r) ++ segBlocks o L := List.flatMap_cons
    have h2 := hL.two
    obtain ⟨a, as, rfl⟩ : ∃ a as, L = a :: as := by
      cases L with
      | nil => simp at h2
      | cons a as => exact ⟨a, as, rfl⟩
    have hch : ((a :: as).map (withSeg r)).IsChain (fun a b => lexLt a.2 b.1 = false) := by
      rw [List.isChain_map]
      refine (List.Pairwise.isChain hL.gap).imp ?_
      intro x y _
      rw [← Bool.not_eq_true, rowLt_iff]
      intro hlt
      have h3 := rowLt_append (rowLt_of_le_ne (h r (by simp)).le (hi r (by simp))) [y.1] [x.2]
      exact RowLt.asymm hlt h3
    rw [e]
    generalize hrest : segBlocks o (a :: as) = rest at ih
    intro g hg
    rw [List.map_cons, List.cons_append, groupRows] at hg
    rw [List.map_cons] at hch
    rcases groupFrom_run (rest := rest) hch with ⟨h4, h5⟩ | ⟨y, r', h4, h5⟩
    · rw [h5] at hg
      have : g = withSeg r a :: as.map (withSeg r) := by simpa using hg
      exact ⟨[r], by rw [this]; simp [segBlocks], by simp⟩
    · rw [h4] at ih
      rcases h5 with h5 | ⟨h', t, h5, h6⟩
      · rw [h5] at hg
        rcases List.mem_cons.mp hg with rfl | hg
        · exact ⟨[r], by simp [segBlocks], by simp⟩
        · obtain ⟨o', e1, e2⟩ := ih g hg
          exact ⟨o', e1, fun x hx => by simp [e2 x hx]⟩
      · rw [h6] at hg
        have ih' : ∀ g ∈ h' :: t, ∃ o', g = segBlocks o' (a :: as) ∧ ∀ r ∈ o', r ∈ o := by
          rw [← h5]; exact ih
        rcases List.mem_cons.mp hg with rfl | hg
        · obtain ⟨o', e1, e2⟩ := ih' h' (by simp)
          refine ⟨r :: o', ?_, ?_⟩
          · rw [e1]
            simp [segBlocks]
          · intro x hx
            rcases List.mem_cons.mp hx with rfl | hx
            · simp
            · simp [e2 x hx]
        · obtain ⟨o', e1, e2⟩ := ih' g (by simp [hg])
          exact ⟨o', e1, fun x hx => by simp [e2 x hx]⟩

/-! ### Rows of a group -/

/-- A row of a line. -/
def lineRow (m : Nat) (p : List Nat) (a : Nat × Nat) : CRow := (p ++ [a.1], List.replicate m 1 ++ [a.2 - a.1 + 1])

theorem rowsOf_withSeg {m : Nat} {r : CRow} (h : EndOK m r) (a : Nat × Nat) :
    rowsOf (withSeg r a) = (cells r.1 (cnt r.1 r.2)).map (fun p => lineRow m p a) := by
  have e1 : (r.1 ++ [a.1]).getLastD 0 = a.1 := by simp [List.getLastD_eq_getLast?]
  have e2 : (r.2 ++ [a.2]).getLastD 0 = a.2 := by simp [List.getLastD_eq_getLast?]
  have e3 : (r.1 ++ [a.1]).length - 1 = m := by simp [h.len]
  simp only [rowsOf, withSeg, List.dropLast_concat, e1, e2, e3, lineRow]

theorem mem_segRows {m : Nat} {o : List CRow} (h : ∀ r ∈ o, EndOK m r) {L : List (Nat × Nat)} {z : CRow} :
    z ∈ (segBlocks o L).flatMap rowsOf ↔ ∃ r ∈ o, ∃ p ∈ cells r.1 (cnt r.1 r.2), ∃ a ∈ L, z = lineRow m p a := by
  simp only [segBlocks, List.mem_flatMap, List.mem_map]
  constructor
  · rintro ⟨x, ⟨r, hr, a, ha, rfl⟩, hz⟩
    rw [rowsOf_withSeg (h r hr), List.mem_map] at hz
    obtain ⟨p, hp, rfl⟩ := hz
    exact ⟨r, hr, p, hp, a, ha, rfl⟩
  · rintro ⟨r, hr, p, hp, a, ha, rfl⟩
    refine ⟨_, ⟨r, hr, a, ha, rfl⟩, ?_⟩
    rw [rowsOf_withSeg (h r hr), List.mem_map]
    exact ⟨p, hp, rfl⟩

theorem segBlocks_settled {srt : List (List Nat) → List Nat} (hs : IsSort srt) {m : Nat} {L : List (Nat × Nat)} (hL : Segs L)
    {o : List CRow} (h : ∀ r ∈ o, EndOK m r) : Settled srt (m + 1) (segBlocks o L) := by
  by_cases h1 : (segBlocks o L).length = 1
  · exact .inl h1
  right
  unfold outL
  rw [if_neg h1]
  have hp := sortL_perm hs ((segBlocks o L).flatMap rowsOf)
  have hso := sortL_sorted hs ((segBlocks o L).flatMap rowsOf)
  rw [mergeAllL_none, hp.length_eq]
  rw [List.isChain_iff_getElem]
  intro i hi d
  rw [← Bool.not_eq_true]
  intro hm
  have hx := hp.mem_iff.mp (List.getElem_mem (show i < (sortL srt ((segBlocks o L).flatMap rowsOf)).length by omega))
  have hy := hp.mem_iff.mp (List.getElem_mem hi)
  obtain ⟨r, hr, p, hpp, a, ha, ex⟩ := (mem_segRows h).mp hx
  obtain ⟨r', hr', q, hq, b, hb, ey⟩ := (mem_segRows h).mp hy
  have lp : p.length = m := by
    rw [cells_mem_length (by rw [cnt_length (by rw [(h r hr).len, (h r hr).len2])]) hpp, (h r hr).len]
  have lq : q.length = m := by
    rw [cells_mem_length (by rw [cnt_length (by rw [(h r' hr').len, (h r' hr').len2])]) hq, (h r' hr').len]
  have hlt := canMerge_lt (by
    rw [ex]
    intro k hk
    simp only [lineRow, List.mem_append, List.mem_replicate, List.mem_singleton] at hk
    rcases hk with ⟨_, rfl⟩ | rfl <;> omega) hm
  -- no row lies between the two
  have hno : ∀ z ∈ (segBlocks o L).flatMap rowsOf, RowLt (lineRow m p a).1 z.1 → RowLt z.1 (lineRow m q b).1 → False := by
    intro z hz h3 h4
    obtain ⟨j, hj, ez⟩ := List.getElem_of_mem (hp.mem_iff.mpr hz)
    rw [← ex, ← ez] at h3
    rw [← ey, ← ez] at h4
    have hpw := List.pairwise_iff_getElem.mp hso
    rcases Nat.lt_trichotomy j i with hji | rfl | hji
    · exact hpw j i hj (by omega) hji h3
    · exact RowLt.irrefl h3
    · by_cases hji' : j = i + 1
      · subst hji'
        exact RowLt.irrefl h4
      · exact hpw (i + 1) j hi hj (by omega) h4
  rw [ex, ey] at hm hlt
  have hm' : canMerge false d (p ++ [a.1]) (List.replicate m 1 ++ [a.2 - a.1 + 1]) (q ++ [b.1])
      (List.replicate m 1 ++ [b.2 - b.1 + 1]) = true := hm
  rcases canMerge_last (by simp [lp]) (by rw [lq, lp]) (by simp [lp]) hm' with ⟨h3, _⟩ | ⟨_, _, h3⟩
  · have hpq : RowLt p q := by
      have : RowLt (p ++ [a.1]) (q ++ [b.1]) := hlt
      rw [h3] at this
      exact rowLt_prefix (by rw [lp, lq]) this
    obtain ⟨w, hw, hwa⟩ := hL.other a
    rcases Nat.lt_or_gt_of_ne hwa with hlt' | hgt
    · refine hno (lineRow m q w) ((mem_segRows h).mpr ⟨r', hr', q, hq, w, hw, rfl⟩) (rowLt_append hpq _ _) ?_
      exact rowLt_append_same (by omega)
    · exact hno (lineRow m p w) ((mem_segRows h).mpr ⟨r, hr, p, hpp, w, hw, rfl⟩) (rowLt_append_same hgt)
        (rowLt_append hpq _ _)
  · simp only [follows, Bool.false_eq_true, if_false, decide_eq_true_eq] at h3
    have := hL.le a ha
    exact hL.apart ha hb (by omega)

theorem sortL_id {srt : List (List Nat) → List Nat} {l : List CRow} (h : srt (l.map Prod.fst) = List.range l.length) :
    sortL srt l = l := by
  unfold sortL
  rw [h]
  apply List.ext_getElem
  · simp
  · intro i h1 h2
    simp [h2]

theorem segBlocks_settledAll {srt : List (List Nat) → List Nat} (hs : IsSort srt) {m : Nat} {L : List (Nat × Nat)}
    (hL : Segs L) {outer : List CRow} (h : ∀ r ∈ outer, EndOK m r) (hi : ∀ r ∈ outer, r.1 ≠ r.2)
    (hb : ∀ r ∈ segBlocks outer L, EndOK (m + 1) r) (ho : Ord (segBlocks outer L)) :
    SettledAll srt (m + 1) (segBlocks outer L) := by
  have hch := segBlocks_chain hL h
  have hm : mergedL srt (m + 1) (segBlocks outer L) = segBlocks outer L := by
    have h1 := mergeAllL_none (m + 1) hch
    have h2 := (mergedL_ord hs hb ho).2
    unfold mergedL
    rw [sortL_id h2, h1, h1]
  intro g hg
  rw [hm] at hg
  obtain ⟨o, rfl, ho'⟩ := segBlocks_groups hL h hi g (List.mem_of_mem_dropLast hg)
  exact segBlocks_settled hs hL (fun r hr => h r (ho' r hr))

/-! ### Regular hyperslabs -/

/-- Regular hyperslabs, given that no rows are merged in groups other than the last one. -/
theorem grid_exact {srt : List (List Nat) → List Nat} (hs : IsSort srt) {s t c b : List Nat} (hn : 0 < s.length)
    (h : GridOK s t c b) (hset : SettledAll srt s.length (gridBlocks s t c b)) :
    ∃ sel, selections srt s.length (.hyper (some ⟨s, t, c, b⟩) (gridBlocks s t c b)) = .ok sel ∧
      sel.destroy s.length = .ok () ∧ ∃ xs, RowMajor (InGrid s t c b) xs ∧ Exact s.length sel.blocks xs := by
  obtain ⟨hb, hp, hh, hx⟩ := grid_blocks h
  obtain ⟨lc, lb, pc, pb⟩ := grid_lengths h
  by_cases hsc : ((allOnes t && allOnes b) || allOnes c) = true
  · -- the shortcut
    have hshort : shortcut ⟨s, t, c, b⟩ = some (selOne s (if allOnes b then c else b)) := by
      unfold shortcut
      simp only
      rw [if_pos hsc]
    have hbox : BoxOK s.length (s, if allOnes b then c else b) := by
      refine ⟨rfl, ?_, ?_⟩
      · simp only; split <;> assumption
      · simp only; split <;> assumption
    refine ⟨selOne s (if allOnes b then c else b), ?_, selOne_destroy _ _ _,
      sel_good (selOne_box hbox) (selOne_sorted hbox) ?_⟩
    · simp only [selections, fromHyper, Option.bind_some, hshort, Option.elim_some]
    · intro x
      rw [selOne_mem hbox]
      by_cases hb1 : allOnes b = true
      · rw [if_pos hb1]
        by_cases hc1 : allOnes c = true
        · obtain ⟨g1, g2⟩ := grid_single h hc1
          rw [g1, g2 hb1]
        · rw [Bool.or_eq_true, Bool.and_eq_true] at hsc
          rcases hsc with hsc | hsc
          · exact (grid_unit h hsc.1 hb1 x).symm
          · exact absurd hsc hc1
      · rw [if_neg hb1]
        rw [Bool.or_eq_true, Bool.and_eq_true] at hsc
        rcases hsc with hsc | hsc
        · exact absurd hsc.2 hb1
        · exact ((grid_single h hsc).1 x).symm
  · have hE : ∀ r ∈ gridBlocks s t c b, EndOK s.length r := fun r hr => endOK_of_block (hb r hr)
    obtain ⟨o, d⟩ := ord_of_stepped hE hp
    have hshort : (some (Hyper.mk s t c b)).bind shortcut = none := by
      simp only [Option.bind_some, shortcut]
      rw [if_neg hsc]
    obtain ⟨sel, e, d, p, so, bx⟩ := fromHyper_ok hs hn hshort hx hE o d hset
    refine ⟨sel, e, d, sel_good bx so ?_⟩
    intro x
    rw [p.mem_iff, mem_ends hb, hh]


theorem grid_ord {s t c b : List Nat} (h : GridOK s t c b) :
    (∀ r ∈ gridBlocks s t c b, EndOK s.length r) ∧ Ord (gridBlocks s t c b) := by
  obtain ⟨hb, hp, _, _⟩ := grid_blocks h
  have hE : ∀ r ∈ gridBlocks s t c b, EndOK s.length r := fun r hr => endOK_of_block (hb r hr)
  exact ⟨hE, (ord_of_stepped hE hp).1⟩

/-- Segments of the last dimension. -/
def gridSegs (s0 t0 c0 b0 : Nat) : List (Nat × Nat) := (List.range c0).map (fun i => (s0 + t0 * i, s0 + t0 * i + (b0 - 1)))

theorem grid_snoc (s0 t0 c0 b0 : Nat) : ∀ {s t c b : List Nat}, GridOK s t c b →
    gridBlocks (s ++ [s0]) (t ++ [t0]) (c ++ [c0]) (b ++ [b0]) = segBlocks (gridBlocks s t c b) (gridSegs s0 t0 c0 b0)
  | [], [], [], [], _ => by
    simp only [List.nil_append, gridBlocks, segBlocks, gridSegs, List.map_cons, List.map_nil, List.flatMap_cons,
      List.flatMap_nil, List.append_nil, List.map_map]
    rw [← List.map_eq_flatMap]
    rfl
  | s :: ss, t :: ts, c :: cs, b :: bs, h => by
    simp only [List.cons_append, gridBlocks, grid_snoc s0 t0 c0 b0 h.2.2.2, segBlocks]
    rw [List.flatMap_assoc]
    apply List.flatMap_congr
    intro i _
    rw [List.map_flatMap, List.flatMap_map]
    apply List.flatMap_congr
    intro r _
    simp [withSeg]
  | [], [], [], _ :: _, h => by simp [GridOK] at h
  | [], [], _ :: _, _, h => by simp [GridOK] at h
  | [], _ :: _, _, _, h => by simp [GridOK] at h
  | _ :: _, [], _, _, h => by simp [GridOK] at h
  | _ :: _, _ :: _, [], _, h => by simp [GridOK] at h
  | _ :: _, _ :: _, _ :: _, [], h => by simp [GridOK] at h

theorem gridOK_snoc {s0 t0 c0 b0 : Nat} : ∀ {s t c b : List Nat}, s.length = t.length → s.length = c.length → s.length = b.length →
    (GridOK (s ++ [s0]) (t ++ [t0]) (c ++ [c0]) (b ++ [b0]) ↔ GridOK s t c b ∧ 1 ≤ c0 ∧ 1 ≤ b0 ∧ (1 < c0 → b0 ≤ t0))
  | [], [], [], [], _, _, _ => by simp [GridOK]
  | s :: ss, t :: ts, c :: cs, b :: bs, h1, h2, h3 => by
    simp only [List.cons_append, GridOK, gridOK_snoc (s := ss) (t := ts) (c := cs) (b := bs) (by simpa using h1)
      (by simpa using h2) (by simpa using h3)]
    constructor
    · rintro ⟨a1, a2, a3, a4, a5⟩
      exact ⟨⟨a1, a2, a3, a4⟩, a5⟩
    · rintro ⟨⟨a1, a2, a3, a4⟩, a5⟩
      exact ⟨a1, a2, a3, a4, a5⟩
  | [], _ :: _, _, _, h, _, _ => by simp at h
  | [], [], _ :: _, _, _, h, _ => by simp at h
  | [], [], [], _ :: _, _, _, h => by simp at h
  | _ :: _, [], _, _, h, _, _ => by simp at h
  | _ :: _, _ :: _, [], _, _, h, _ => by simp at h
  | _ :: _, _ :: _, _ :: _, [], _, _, h => by simp at h

theorem gridSegs_ok {s0 t0 c0 b0 : Nat} (hc : 2 ≤ c0) (hb : 1 ≤ b0) (ht : b0 < t0) : Segs (gridSegs s0 t0 c0 b0) := by
  refine ⟨?_, ?_, by simpa [gridSegs] using hc⟩
  · intro a ha
    simp only [gridSegs, List.mem_map] at ha
    obtain ⟨i, _, rfl⟩ := ha
    simp
  · unfold gridSegs
    rw [List.pairwise_map]
    refine List.pairwise_lt_range.imp ?_
    intro i j hij
    have := Nat.mul_le_mul_left t0 (show i + 1 ≤ j from hij)
    rw [Nat.mul_add, Nat.mul_one] at this
    simp only
    omega

/-- Blocks of an outer grid are all single cells or all not. -/
theorem grid_size : ∀ {s t c b : List Nat}, GridOK s t c b → (∃ k ∈ b, k ≠ 1) → ∀ r ∈ gridBlocks s t c b, r.1 ≠ r.2
  | [], [], [], [], _, h => by simp at h
  | s :: ss, t :: ts, c :: cs, b :: bs, h, hk => by
    intro r hr
    simp only [gridBlocks, List.mem_flatMap, List.mem_map] at hr
    obtain ⟨i, _, q, hq, rfl⟩ := hr
    obtain ⟨k, hk, hk1⟩ := hk
    intro he
    simp only [List.cons.injEq] at he
    rcases List.mem_cons.mp hk with rfl | hk
    · have := h.2.1
      omega
    · exact grid_size h.2.2.2 ⟨k, hk, hk1⟩ q hq he.2
  | [], [], [], _ :: _, h, _ => by simp [GridOK] at h
  | [], [], _ :: _, _, h, _ => by simp [GridOK] at h
  | [], _ :: _, _, _, h, _ => by simp [GridOK] at h
  | _ :: _, [], _, _, h, _ => by simp [GridOK] at h
  | _ :: _, _ :: _, [], _, h, _ => by simp [GridOK] at h
  | _ :: _, _ :: _, _ :: _, [], h, _ => by simp [GridOK] at h

theorem noInterleave_units (c0 b0 : Nat) : ∀ {c b : List Nat}, (∀ k ∈ b, k = 1) → c.length = b.length →
    NoInterleave (c ++ [c0]) (b ++ [b0])
  | [], [], _, _ => ⟨.inr (by simp), trivial⟩
  | c :: cs, b :: bs, h, hl => ⟨.inl (h b (by simp)), noInterleave_units c0 b0 (fun k hk => h k (by simp [hk])) (by simpa using hl)⟩
  | [], _ :: _, _, h => by simp at h
  | _ :: _, [], _, h => by simp at h

theorem strided_settled {srt : List (List Nat) → List Nat} (hs : IsSort srt) {s t c b : List Nat} {s0 t0 c0 b0 : Nat}
    (hg : GridOK s t c b) (h : GridOK (s ++ [s0]) (t ++ [t0]) (c ++ [c0]) (b ++ [b0])) (hc : 2 ≤ c0) (hb : 1 ≤ b0) (ht : b0 < t0) :
    SettledAll srt (s.length + 1) (gridBlocks (s ++ [s0]) (t ++ [t0]) (c ++ [c0]) (b ++ [b0])) := by
  obtain ⟨lc, lb, _, _⟩ := grid_lengths hg
  obtain ⟨hE, ho⟩ := grid_ord h
  rw [List.length_append] at hE
  by_cases hu : ∀ k ∈ b, k = 1
  · exact settled_of_sorted hs hE ho (grid_sorted h (noInterleave_units c0 b0 hu (by rw [lc, lb])))
  · have hu' : ∃ k ∈ b, k ≠ 1 := by
      rcases Classical.em (∃ k ∈ b, k ≠ 1) with h1 | h1
      · exact h1
      · exact absurd (fun k hk => Classical.byContradiction (fun h2 => h1 ⟨k, hk, h2⟩)) hu
    rw [grid_snoc s0 t0 c0 b0 hg] at hE ho ⊢
    exact segBlocks_settledAll hs (gridSegs_ok hc hb ht) (grid_ord hg).1 (grid_size hg hu') hE ho

/-! ### Blocks that touch in the last dimension -/

theorem settled_of_merged {srt : List (List Nat) → List Nat} (hs : IsSort srt) {n : Nat} {bs : List CRow}
    (h : ∀ r ∈ bs, EndOK n r) (ho : Ord bs) (hc : (cellsL ((mergeAllL true n bs).map toCount)).Pairwise RowLt) :
    SettledAll srt n bs := by
  have hE := (mergeAllL_true n bs h).2.1
  have hm : (cellsL ((mergedL srt n bs).map toCount)).Pairwise RowLt := by
    unfold mergedL
    rw [sortL_id (mergedL_ord hs h ho).2, (mergeAllL_true n _ hE).1, mergeAllL_keep (n := n) n _ _ hc]
    · exact hc
    · intro y hy
      obtain ⟨r, hr, rfl⟩ := List.mem_map.mp hy
      exact (hE r hr).box
  intro g hg
  left
  have hg' := List.mem_of_mem_dropLast hg
  have hok := (mergedL_ok hs h).1
  cases hl : mergedL srt n bs with
  | nil => rw [hl] at hg'; simp [groupRows] at hg'
  | cons x r =>
    rw [hl] at hg' hm hok
    exact groupFrom_single x r hok hm g hg'

theorem canMerge_at {u : Bool} {v e v' e' : Nat} : ∀ {s c : List Nat}, c.length = s.length →
    canMerge u s.length (s ++ [v]) (c ++ [e]) (s ++ [v']) (c ++ [e']) = follows u v e v'
  | [], [], _ => by simp [canMerge]
  | s :: ss, c :: cs, h => by
    simp only [List.length_cons, List.cons_append, canMerge]
    rw [canMerge_at (by simpa using h)]
    simp
  | [], _ :: _, h => by simp at h
  | _ :: _, [], h => by simp at h

theorem mergeCount_at {e e' : Nat} : ∀ {c : List Nat}, mergeCount true c.length (c ++ [e]) (c ++ [e']) = c ++ [e']
  | [] => by simp [mergeCount]
  | c :: cs => by
    simp only [List.length_cons, List.cons_append, mergeCount]
    rw [mergeCount_at]

/-- Consecutive segments. -/
def Touching (L : List (Nat × Nat)) : Prop := L.IsChain (fun a b => a.2 + 1 = b.1)

theorem merge_run {m : Nat} {r : CRow} (h : EndOK m r) {rest : List CRow} : ∀ {L : List (Nat × Nat)} {v e : Nat},
    Touching ((v, e) :: L) → mergeL true m (withSeg r (v, e)) (L.map (withSeg r) ++ rest) =
      mergeL true m (withSeg r (v, (((v, e) :: L).getLast (by simp)).2)) rest
  | [], _, _, _ => rfl
  | (v', e') :: L, v, e, ht => by
    unfold Touching at ht
    rw [List.isChain_cons_cons] at ht
    have h1 : canMerge true m (withSeg r (v, e)).1 (withSeg r (v, e)).2 (withSeg r (v', e')).1 (withSeg r (v', e')).2 = true := by
      have := canMerge_at (u := true) (v := v) (e := e) (v' := v') (e' := e') (s := r.1) (c := r.2) (by rw [h.len, h.len2])
      rw [h.len] at this
      have h2 : e + 1 = v' := ht.1
      simpa [withSeg, follows, h2] using this
    have h2 : mergeCount true m (withSeg r (v, e)).2 (withSeg r (v', e')).2 = r.2 ++ [e'] := by
      have := mergeCount_at (e := e) (e' := e') (c := r.2)
      rw [h.len2] at this
      exact this
    rw [List.map_cons, List.cons_append, mergeL, if_pos h1, h2]
    have h3 : Touching ((v, e') :: L) := by
      unfold Touching
      cases L with
      | nil => exact .singleton _
      | cons z L =>
        have := ht.2
        rw [List.isChain_cons_cons] at this ⊢
        exact this
    have h4 : ((withSeg r (v, e)).1, r.2 ++ [e']) = withSeg r (v, e') := rfl
    rw [h4, merge_run h h3]
    congr 3
    cases L with
    | nil => rfl
    | cons z L => simp [List.getLast_cons]

theorem getLast_seg : ∀ {L : List (Nat × Nat)} {v e : Nat}, Touching ((v, e) :: L) → (∀ a ∈ (v, e) :: L, a.1 ≤ a.2) →
    v ≤ (((v, e) :: L).getLast (by simp)).2
  | [], v, e, _, h => h (v, e) (by simp)
  | (v', e') :: L, v, e, ht, h => by
    unfold Touching at ht
    rw [List.isChain_cons_cons] at ht
    have := getLast_seg (L := L) (v := v') (e := e') ht.2 (fun a ha => h a (by simp [ha]))
    have h1 : e + 1 = v' := ht.1
    have h2 := h (v, e) (by simp)
    simp only at h2
    rw [List.getLast_cons (by simp)]
    omega

theorem merge_touching {m : Nat} {L : List (Nat × Nat)} {v e : Nat} (ht : Touching ((v, e) :: L))
    (hl : ∀ a ∈ (v, e) :: L, a.1 ≤ a.2) : ∀ {outer : List CRow}, (∀ r ∈ outer, EndOK m r) →
    mergeDimL true m (segBlocks outer ((v, e) :: L)) =
      segBlocks outer [(v, (((v, e) :: L).getLast (by simp)).2)]
  | [], _ => rfl
  | r :: o, h => by
    have ih := merge_touching ht hl (outer := o) (fun x hx => h x (by simp [hx]))
    have hr := h r (by simp)
    have e1 : ∀ L, segBlocks (r :: o) L = L.map (withSeg r) ++ segBlocks o L := fun L => List.flatMap_cons
    rw [e1, e1, List.map_cons, List.cons_append, mergeDimL, merge_run hr ht]
    cases o with
    | nil => simp [segBlocks, mergeL]
    | cons r' o' =>
      have e2 : segBlocks (r' :: o') ((v, e) :: L) = withSeg r' (v, e) :: (L.map (withSeg r') ++ segBlocks o' ((v, e) :: L)) := by
        simp [segBlocks]
      have hr' := h r' (by simp)
      have hv := getLast_seg ht hl
      rw [← ih, e2, mergeDimL, mergeL, if_neg]
      · rfl
      · intro hm
        rcases canMerge_last (by rw [hr.len2, hr.len]) (by rw [hr'.len, hr.len]) (by rw [hr'.len2, hr.len]) hm with h3 | ⟨_, _, h3⟩
        · -- equal last segments: merging in the last dimension requires the next start
          have hm2 : canMerge true m (r.1 ++ [v]) (r.2 ++ [(((v, e) :: L).getLast (by simp)).2]) (r'.1 ++ [v]) (r'.2 ++ [e]) = true := hm
          have := canMerge_top (hr.len) (by rw [hr.len2]) (by rw [hr'.len]) (by rw [hr'.len2]) hm2
          simp only [follows, if_true, decide_eq_true_eq] at this
          omega
        · simp only [follows, if_true, decide_eq_true_eq] at h3
          omega

theorem gridSegs_touching (s0 c0 b0 : Nat) (hb : 1 ≤ b0) : Touching (gridSegs s0 b0 c0 b0) := by
  unfold Touching gridSegs
  rw [List.isChain_iff_getElem]
  intro i hi
  simp only [List.getElem_map, List.getElem_range, Nat.mul_add]
  omega

theorem joined_settled {srt : List (List Nat) → List Nat} (hs : IsSort srt) {s t c b : List Nat} {s0 c0 b0 : Nat}
    (hg : GridOK s t c b) (h : GridOK (s ++ [s0]) (t ++ [b0]) (c ++ [c0]) (b ++ [b0])) (hc : 1 ≤ c0) (hb : 1 ≤ b0)
    (hi : NoInterleave (c ++ [1]) (b ++ [c0 * b0])) :
    SettledAll srt (s.length + 1) (gridBlocks (s ++ [s0]) (t ++ [b0]) (c ++ [c0]) (b ++ [b0])) := by
  obtain ⟨hE, ho⟩ := grid_ord h
  rw [List.length_append] at hE
  refine settled_of_merged hs hE ho ?_
  obtain ⟨k, rfl⟩ : ∃ k, c0 = k + 1 := ⟨c0 - 1, by omega⟩
  have hseg : gridSegs s0 b0 (k + 1) b0 = (s0, s0 + (b0 - 1)) :: (gridSegs s0 b0 (k + 1) b0).tail := by
    simp [gridSegs, List.range_succ_eq_map]
  have ht := gridSegs_touching s0 (k + 1) b0 hb
  have hle : ∀ a ∈ gridSegs s0 b0 (k + 1) b0, a.1 ≤ a.2 := by
    intro a ha
    simp only [gridSegs, List.mem_map] at ha
    obtain ⟨i, _, rfl⟩ := ha
    simp
  have hlast : ∀ hne, ((gridSegs s0 b0 (k + 1) b0).getLast hne).2 = s0 + ((k + 1) * b0 - 1) := by
    intro hne
    simp only [gridSegs, List.range_succ, List.map_append, List.map_cons, List.map_nil, List.getLast_append_singleton,
      Nat.succ_mul]
    rw [Nat.mul_comm b0 k]
    omega
  rw [hseg] at ht hle hlast
  have hm := merge_touching ht hle (grid_ord hg).1
  rw [hlast] at hm
  have hlen := grid_lengths hg
  have hgl : s.length = t.length := by
    clear hE ho hseg ht hle hlast hm h hi hlen
    induction s generalizing t c b with
    | nil => cases t <;> cases c <;> cases b <;> simp [GridOK] at hg ⊢
    | cons x s ih =>
      cases t <;> cases c <;> cases b <;> simp only [GridOK] at hg
      simp [ih hg.2.2.2]
  have hg2 : GridOK (s ++ [s0]) (t ++ [1]) (c ++ [1]) (b ++ [(k + 1) * b0]) := by
    rw [gridOK_snoc hgl hlen.1.symm hlen.2.1.symm]
    exact ⟨hg, Nat.le_refl _, Nat.mul_pos (by omega) hb, by omega⟩
  have hone : segBlocks (gridBlocks s t c b) [(s0, s0 + ((k + 1) * b0 - 1))] =
      gridBlocks (s ++ [s0]) (t ++ [1]) (c ++ [1]) (b ++ [(k + 1) * b0]) := by
    rw [grid_snoc s0 1 1 _ hg]
    rfl
  have hso := grid_sorted hg2 hi
  have hE2 := (grid_ord hg2).1
  rw [grid_snoc s0 b0 (k + 1) b0 hg, hseg]
  show (cellsL ((mergeAllL true s.length (mergeDimL true s.length (segBlocks (gridBlocks s t c b) _))).map toCount)).Pairwise RowLt
  rw [hm, hone, (mergeAllL_true s.length _ hE2).1, mergeAllL_keep (n := (s ++ [s0]).length) _ _ _ hso]
  · exact hso
  · intro y hy
    obtain ⟨r, hr, rfl⟩ := List.mem_map.mp hy
    exact (hE2 r hr).box

theorem gridOK_parts {s t c b : List Nat} (hn : 0 < s.length) (h : GridOK s t c b) :
    ∃ s' t' c' b' s0 t0 c0 b0, s = s' ++ [s0] ∧ t = t' ++ [t0] ∧ c = c' ++ [c0] ∧ b = b' ++ [b0] ∧ GridOK s' t' c' b' ∧
      1 ≤ c0 ∧ 1 ≤ b0 ∧ (1 < c0 → b0 ≤ t0) := by
  have hlen : ∀ {s t c b : List Nat}, GridOK s t c b → t.length = s.length := by
    intro s
    induction s with
    | nil => intro t c b h; cases t <;> cases c <;> cases b <;> simp [GridOK] at h ⊢
    | cons x s ih =>
      intro t c b h
      cases t <;> cases c <;> cases b <;> simp only [GridOK] at h
      simp [ih h.2.2.2]
  obtain ⟨lc, lb, _, _⟩ := grid_lengths h
  have lt := hlen h
  rcases List.eq_nil_or_concat s with rfl | ⟨s', s0, rfl⟩
  · simp at hn
  rw [List.length_concat] at lc lb lt
  rcases List.eq_nil_or_concat t with rfl | ⟨t', t0, rfl⟩
  · simp at lt
  rcases List.eq_nil_or_concat c with rfl | ⟨c', c0, rfl⟩
  · simp at lc
  rcases List.eq_nil_or_concat b with rfl | ⟨b', b0, rfl⟩
  · simp at lb
  rw [List.length_concat] at lc lb lt
  simp only [List.concat_eq_append] at h ⊢
  rw [gridOK_snoc (by omega) (by omega) (by omega)] at h
  exact ⟨s', t', c', b', s0, t0, c0, b0, rfl, rfl, rfl, rfl, h⟩

end Verif
