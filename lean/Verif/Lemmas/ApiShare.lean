import Verif.Spec.Api
import Verif.Lemmas.Select

/-
The conditions of sharing and selection encoding in terms of selected cells.
-/

namespace Verif

open Spec (AW UW UFile Made Exact InBlk inBox dataOffset idxIn OneBlock Confined SameSel SameCells)

/-- Blocks that correspond determine cells that correspond. -/
theorem exact_map {n n' : Nat} {bs bs' : List Blk} {xs ys : List (List Nat)} (h : Exact n bs xs) (h' : Exact n' bs' ys)
    (g : List Nat → List Nat) (hl : bs.length = bs'.length) (hc : bs.map Blk.size = bs'.map Blk.size)
    (hg : ∀ (i : Nat) (h1 : i < bs.length) (h2 : i < bs'.length) (x : List Nat), InBlk bs[i] x →
      InBlk bs'[i] (g x) ∧ idxIn bs[i] x = idxIn bs'[i] (g x)) : ys = xs.map g := by
  have hlen : xs.length = ys.length := by rw [← h.count_le.2, ← h'.count_le.2, hc]
  refine List.ext_getElem (by simp [hlen]) (fun k h1 h2 => ?_)
  rw [List.length_map] at h2
  obtain ⟨i, hi, hin, e1⟩ := h.block h2 1
  obtain ⟨g1, g2⟩ := hg i hi (by omega) _ hin
  obtain ⟨k', hk', e2, e3⟩ := h'.place (by omega) g1 1
  have ho : dataOffset 1 bs i = dataOffset 1 bs' i := by
    unfold dataOffset
    rw [List.map_take, List.map_take, hc]
  have : k = k' := by omega
  subst this
  rw [List.getElem_map]
  exact e2

theorem confined_iff {srt : List (List Nat) → List Nat} (hs : IsSort srt) {w : AW} {u : UW} (h : Made srt w u) :
    Confined w ↔ u.InRecord := by
  have hex := made_exact hs h
  unfold Confined UW.InRecord
  rw [h.d]
  refine and_congr_right (fun _ => exists_congr (fun n => ?_))
  constructor
  · intro hb x hx
    obtain ⟨k, hk, rfl⟩ := List.getElem_of_mem hx
    obtain ⟨i, hi, hin, _⟩ := hex.block hk 1
    obtain ⟨b1, b2⟩ := hb _ (List.getElem_mem hi)
    generalize w.bs[i] = b at hin b1 b2
    generalize u.cells[k] = x at hin
    obtain ⟨s, c⟩ := b
    unfold InBlk at hin
    match s, c, x, b1, b2, hin with
    | s :: ss, c :: cs, y :: ys, b1, b2, hin =>
      simp only [List.head?_cons, Option.some.injEq] at b1 b2 ⊢
      simp only [inBox, Bool.and_eq_true, decide_eq_true_eq] at hin
      omega
  · intro hc b hb
    obtain ⟨l1, l2, hp⟩ := hex.shape b hb
    have h1 := hc _ (hex.cover b hb _ (inBox_start (by rw [l1, l2]) hp))
    have h2 := hc _ (hex.cover b hb _ (inBox_end (by rw [l1, l2]) hp))
    obtain ⟨s, c⟩ := b
    match s, c, l1, l2, hp, h1, h2 with
    | s :: ss, c :: cs, _, _, hp, h1, h2 =>
      simp only [List.zipWith_cons_cons, List.head?_cons, Option.some.injEq] at h1 h2 ⊢
      have := hp c (by simp)
      omega
    | s :: ss, [], l1, l2, _, _, _ => simp only [List.length_cons, List.length_nil] at l1 l2; omega

/-- Equal blocks are equal cells. -/
theorem cells_of_blocks {srt : List (List Nat) → List Nat} (hs : IsSort srt) {w w' : AW} {u u' : UW} (h : Made srt w u)
    (h' : Made srt w' u') (hb : w.bs = w'.bs) : u.cells = u'.cells := by
  have hex' := made_exact hs h'
  rw [← hb] at hex'
  have := exact_map (made_exact hs h) hex' id rfl rfl (fun i h1 h2 x hx => ⟨hx, rfl⟩)
  rw [this, List.map_id]

theorem same_cells {srt : List (List Nat) → List Nat} (hs : IsSort srt) {w w' : AW} {u u' : UW} (h : Made srt w u)
    (h' : Made srt w' u') (hb : SameSel w w') : SameCells u u' := by
  rcases hb with hb | ⟨c1, c2, hb⟩
  · exact .inl (cells_of_blocks hs h h' hb)
  refine .inr ⟨(confined_iff hs h).mp c1, (confined_iff hs h').mp c2, ?_⟩
  have hex := made_exact hs h
  have hex' := made_exact hs h'
  obtain ⟨-, n, c1⟩ := c1
  obtain ⟨-, m, c2⟩ := c2
  have hl : w.bs.length = w'.bs.length := by simpa using congrArg List.length hb
  have hi : ∀ (i : Nat) (h1 : i < w.bs.length) (h2 : i < w'.bs.length), ∃ s c, w.bs[i] = ⟨n :: s, 1 :: c⟩ ∧ w'.bs[i] = ⟨m :: s, 1 :: c⟩ := by
    intro i h1 h2
    obtain ⟨p1, p2⟩ := c1 _ (List.getElem_mem h1)
    obtain ⟨q1, q2⟩ := c2 _ (List.getElem_mem h2)
    have he : (w.bs[i].start.drop 1, w.bs[i].count.drop 1) = (w'.bs[i].start.drop 1, w'.bs[i].count.drop 1) := by
      have := List.getElem_of_eq hb (i := i) (by simpa using h1)
      simpa using this
    generalize w.bs[i] = b at *
    generalize w'.bs[i] = b' at *
    obtain ⟨s, c⟩ := b
    obtain ⟨s', c'⟩ := b'
    match s, c, s', c', p1, p2, q1, q2, he with
    | s :: ss, c :: cs, s' :: ss', c' :: cs', p1, p2, q1, q2, he =>
      simp only [List.head?_cons, Option.some.injEq] at p1 p2 q1 q2
      simp only [List.drop_succ_cons, List.drop_zero, Prod.mk.injEq] at he
      exact ⟨ss, cs, by rw [p1, p2], by rw [q1, q2, he.1, he.2]⟩
  have := exact_map hex hex' (fun x => m :: x.drop 1) hl (by
    refine List.ext_getElem (by simp [hl]) (fun i h1 h2 => ?_)
    rw [List.length_map] at h1 h2
    obtain ⟨s, c, e1, e2⟩ := hi i h1 h2
    rw [List.getElem_map, List.getElem_map, e1, e2]
    rfl) (by
    intro i h1 h2 x hx
    obtain ⟨s, c, e1, e2⟩ := hi i h1 h2
    rw [e1] at hx ⊢
    rw [e2]
    unfold InBlk at hx ⊢
    unfold idxIn
    match x, hx with
    | y :: ys, hx =>
      simp only [inBox, Bool.and_eq_true, decide_eq_true_eq, List.drop_succ_cons, List.drop_zero, Spec.rowIndex] at hx ⊢
      refine ⟨⟨by omega, hx.2⟩, ?_⟩
      have : y - n = 0 := by omega
      rw [this, Nat.sub_self])
  rw [this, List.map_map]
  refine List.map_congr_left (fun x _ => ?_)
  simp

theorem same_cells_symm {u u' : UW} (h : SameCells u u') : SameCells u' u :=
  h.imp Eq.symm (fun h => ⟨h.2.1, h.1, h.2.2.symm⟩)

/-- Selections that are one block by their form give one block. -/
theorem oneBlock_le {srt : List (List Nat) → List Nat} {n : Nat} {sel : H5Sel} (h : OneBlock sel) {s : Sel}
    (hs : selections srt n sel = .ok s) {xs : List (List Nat)} (hex : Exact n s.blocks xs) (hc : Spec.Chosen n sel xs) :
    s.blocks.length ≤ 1 := by
  have ones : ∀ l : List Nat, (∀ n ∈ l, n = 1) → allOnes l = true := by
    intro l hl
    unfold allOnes
    rw [List.all_eq_true]
    intro x hx
    simpa using hl x hx
  have one : ∀ a c, (selOne a c).blocks.length = 1 := fun a c => rfl
  match sel, h, hs, hc with
  | .hyper (some hy) _, h, hs, _ =>
    simp only [selections, fromHyper, Option.bind_some] at hs
    have : shortcut hy = some (selOne hy.start (if allOnes hy.block then hy.count else hy.block)) := by
      unfold shortcut
      rw [if_pos]
      rcases h with ⟨h1, h2⟩ | h
      · simp [ones _ h1, ones _ h2]
      · simp [ones _ h]
    rw [this] at hs
    simp only [Option.elim_some, Res.ok.injEq] at hs
    rw [← hs, one]
  | .hyper none bs, h, hs, _ =>
    simp only [OneBlock] at h
    simp only [selections, fromHyper, Option.bind_none, Option.elim_none, h] at hs
    simp only [Nat.one_ne_zero, if_false, if_true, Res.ok.injEq] at hs
    rw [← hs, one]
  | .points ps, h, _, hc =>
    have := hex.count_le.1
    simp only [Spec.Chosen] at hc
    rw [hc.2] at this
    exact Nat.le_trans this h
  | .all dims, _, hs, _ =>
    simp only [selections, Res.ok.injEq] at hs
    rw [← hs]
    split
    · simp [Sel.blocks, Arr.view]
    · rw [one]
  | .none, _, hs, _ =>
    simp only [selections, Res.ok.injEq] at hs
    rw [← hs]
    simp [Sel.blocks, Arr.view]

theorem made_one {srt : List (List Nat) → List Nat} (hs : IsSort srt) {w : AW} {u : UW} (h : Made srt w u) (ho : OneBlock u.sel) :
    w.bs.length ≤ 1 := by
  have hex := made_exact hs h
  obtain ⟨s, e, hb⟩ := h.blocks
  rw [hb] at hex ⊢
  exact oneBlock_le ho e hex h.ok.chosen

theorem inBox_set : ∀ {s c : List Nat} {i : Nat} (hl : s.length = c.length) (hi : i < s.length), (∀ n ∈ c, 1 ≤ n) →
    ∀ v, s[i] ≤ v → v < s[i] + c[i]'(hl ▸ hi) → inBox s c (s.set i v) = true
  | s :: ss, c :: cs, 0, hl, hi, hp, v, h1, h2 => by
    simp only [List.set_cons_zero, inBox, Bool.and_eq_true, decide_eq_true_eq]
    exact ⟨⟨h1, h2⟩, inBox_start (by simpa using hl) (fun n hn => hp n (by simp [hn]))⟩
  | s :: ss, c :: cs, i + 1, hl, hi, hp, v, h1, h2 => by
    have := hp c (by simp)
    simp only [List.set_cons_succ, inBox, Bool.and_eq_true, decide_eq_true_eq]
    exact ⟨by omega, inBox_set (by simpa using hl) (by simpa using hi) (fun n hn => hp n (by simp [hn])) v h1 h2⟩

theorem forall₂_lt_getElem {x y : List Nat} (h : List.Forall₂ (· < ·) x y) : ∀ (i : Nat) (h1 : i < x.length) (h2 : i < y.length), x[i] < y[i] := by
  induction h with
  | nil => intro i h1; simp at h1
  | cons h1 _ ih =>
    intro i a b
    cases i with
    | zero => exact h1
    | succ i => exact ih i _ _

theorem made_extent {srt : List (List Nat) → List Nat} (hs : IsSort srt) {w : AW} {u : UW} (h : Made srt w u) :
    ∀ b ∈ w.bs, Spec.InExtent w.d.dims b := by
  intro b hb
  have hex := made_exact hs h
  obtain ⟨l1, l2, hp⟩ := hex.shape b hb
  have hw := h.ok.within _ (hex.cover b hb _ (inBox_end (by rw [l1, l2]) hp))
  rw [h.d]
  have hl := hw.length_eq
  rw [List.length_zipWith] at hl
  refine ⟨by omega, by omega, fun i h1 h2 h3 => ?_⟩
  have := forall₂_lt_getElem hw i (by rw [List.length_zipWith]; omega) h3
  rw [List.getElem_zipWith] at this
  have := hp _ (List.getElem_mem h2)
  omega

theorem made_width {srt : List (List Nat) → List Nat} (hs : IsSort srt) {w : AW} {u : UW} (h : Made srt w u) {k : Nat}
    (hn : u.NoLine k) : ∀ b ∈ w.bs, Spec.NotFullWidth k w.d.dims b := by
  intro b hb i hi h1 h2
  obtain ⟨e1, e2, e3⟩ := made_extent hs h b hb
  have hex := made_exact hs h
  obtain ⟨l1, l2, hp⟩ := hex.shape b hb
  refine Nat.lt_of_not_le (fun hle => ?_)
  have h0 := e3 i (by omega) h1 h2
  rw [h.d] at h2
  obtain ⟨c, hc, hnot⟩ := hn i hi h2 _ (hex.cover b hb _ (inBox_start (by rw [l1, l2]) hp))
  refine hnot (hex.cover b hb _ (inBox_set (by rw [l1, l2]) (by omega) hp c ?_ ?_))
  · omega
  · simp only [h.d] at hle h0
    omega

/-- Pairs of writes. -/
theorem pairwise_made {α β : Type} {R : α → β → Prop} {P : α → α → Prop} {Q : β → β → Prop}
    (hpq : ∀ a b a' b', R a a' → R b b' → Q a' b' → P a b) {l : List α} {l' : List β} (h : List.Forall₂ R l l') (hq : l'.Pairwise Q) :
    l.Pairwise P := by
  induction h with
  | nil => exact .nil
  | cons h1 h2 ih =>
    rw [List.pairwise_cons] at hq ⊢
    refine ⟨fun b hb => ?_, ih hq.2⟩
    clear ih
    have hq1 := hq.1
    clear hq
    induction h2 with
    | nil => simp at hb
    | cons h3 _ ih =>
      rcases List.mem_cons.mp hb with rfl | hb
      · exact hpq _ _ _ _ h1 h3 (hq1 _ (by simp))
      · exact ih hb (fun c hc => hq1 c (by simp [hc]))

end Verif
