import Verif.Lemmas.FileRead
import Verif.Lemmas.Split
import Verif.Spec.Exact

namespace Verif

open Spec (AW Confined SameSel SameEntry)

/-- Suffix products determine the factors. -/
theorem dsteps_inj : ∀ {as bs : List Nat} {a b : Nat}, as.length = bs.length → (∀ x ∈ as, 0 < x) →
    (dsteps (a :: as)).take as.length = (dsteps (b :: bs)).take bs.length → as = bs
  | [], [], _, _, _, _, _ => rfl
  | [], _ :: _, _, _, h, _, _ => by simp at h
  | _ :: _, [], _, _, h, _, _ => by simp at h
  | x :: as, y :: bs, a, b, h, hp, he => by
    simp only [List.length_cons, Nat.add_right_cancel_iff] at h
    have e1 : dsteps (a :: x :: as) = prod (x :: as) :: dsteps (x :: as) := rfl
    have e2 : dsteps (b :: y :: bs) = prod (y :: bs) :: dsteps (y :: bs) := rfl
    rw [e1, e2] at he
    simp only [List.length_cons, List.take_succ_cons, List.cons.injEq] at he
    have ih := dsteps_inj (a := x) (b := y) h (fun z hz => hp z (by simp [hz])) he.2
    subst ih
    have hm : x * prod as = y * prod as := he.1
    have hpos : 0 < prod as := by
      clear e1 e2 he hm h
      induction as with
      | nil => simp [prod]
      | cons z as ih2 =>
        have h1 := hp z (by simp)
        have h2 := ih2 (fun w hw => hp w (by
          rcases List.mem_cons.mp hw with rfl | hw
          · simp
          · simp [hw]))
        exact Nat.mul_pos h1 h2
    rw [Nat.eq_of_mul_eq_mul_right hpos hm]

theorem digits_pos : ∀ {ds cs : List Nat}, Digits ds cs → ∀ x ∈ ds, 0 < x
  | [], _, _, x, hx => by simp at hx
  | d :: ds, [], h, _, _ => by simp [Digits] at h
  | d :: ds, c :: cs, h, x, hx => by
    rcases List.mem_cons.mp hx with rfl | hx
    · exact Nat.lt_of_le_of_lt (Nat.zero_le _) h.1
    · exact digits_pos h.2 x hx

/-- The words of the dimensions depend only on the dimensions after the first. -/
theorem dsteps_tail {ds ds' : List Nat} (h : ds.tail = ds'.tail) (hl : ds.length = ds'.length) : dsteps ds = dsteps ds' := by
  cases ds with
  | nil => cases ds' with
    | nil => rfl
    | cons _ _ => simp at hl
  | cons a as => cases ds' with
    | nil => simp at hl
    | cons b bs =>
      simp only [List.tail_cons] at h
      simp [dsteps, h]

theorem selLen_iff {cfg : Cfg} {w : AW} (h : AWF cfg w) :
    8 < (selBytes cfg w.d w.bs).length ↔ recDims w.d w.bs < w.d.ndim := by
  rw [selBytes_eq, List.length_append, putWords_length, coordWords_length h]
  have hp : 0 < w.bs.length := List.length_pos_iff.mpr h.sel.ne
  have h4 : (if 1 < w.bs.length then leN 4 w.bs.length else []).length ≤ 4 := by split <;> simp
  constructor
  · intro h8
    by_cases hc : recDims w.d w.bs < w.d.ndim
    · exact hc
    · exfalso
      have e0 : w.d.ndim - recDims w.d w.bs = 0 := by omega
      rw [wreqFlags_enc, e0] at h8
      simp only [Nat.not_lt_zero, decide_false, Bool.and_false, Bool.false_and, Bool.false_eq_true, if_false, Nat.mul_zero,
        Nat.zero_mul] at h8
      omega
  · intro hc
    generalize (if 1 < w.bs.length then leN 4 w.bs.length else []).length = z at h4 ⊢
    split
    · omega
    · have : 2 * 1 * 1 ≤ 2 * (w.d.ndim - recDims w.d w.bs) * w.bs.length :=
        Nat.mul_le_mul (Nat.mul_le_mul (Nat.le_refl 2) (by omega)) hp
      omega

theorem dims_iff {cfg : Cfg} {w : AW} (h : AWF cfg w) :
    recDims w.d w.bs < w.d.ndim ↔ 0 < w.d.ndim ∧ (Confined w → 1 < w.d.ndim) := by
  have hi := recDims_eq_one_iff h.sel
  rcases recDims_01 w.d w.bs with h0 | h0
  · have hn : ¬ Confined w := fun hc => by rw [← hi, h0] at hc; omega
    rw [h0]
    exact ⟨fun hh => ⟨hh, fun hc => absurd hc hn⟩, fun hh => hh.1⟩
  · have hc : Confined w := hi.mp h0
    rw [h0]
    exact ⟨fun hh => ⟨by omega, fun _ => hh⟩, fun hh => hh.2 hc⟩

/-- Equal selection bytes: equal words. -/
theorem coordWords_eq {cfg : Cfg} {w w' : AW} (h : AWF cfg w) (h' : AWF cfg w') (hl : w'.bs.length = w.bs.length)
    (hs : selBytes cfg w'.d w'.bs = selBytes cfg w.d w.bs) : coordWords cfg w'.d w'.bs = coordWords cfg w.d w.bs := by
  rw [selBytes_eq, selBytes_eq, hl] at hs
  exact putWords_inj (coordWords_lt h') (coordWords_lt h) (List.append_cancel_left hs)

theorem map_fst_drop {bs bs' : List Blk} (h : bs'.map (fun b => (b.start.drop 1, b.count.drop 1)) =
    bs.map (fun b => (b.start.drop 1, b.count.drop 1))) :
    bs'.map (fun b => b.start.drop 1) = bs.map (fun b => b.start.drop 1) ∧
    bs'.map (fun b => b.count.drop 1) = bs.map (fun b => b.count.drop 1) := by
  have h1 := congrArg (List.map Prod.fst) h
  have h2 := congrArg (List.map Prod.snd) h
  rw [List.map_map, List.map_map] at h1 h2
  exact ⟨h1, h2⟩

theorem flatMap_of_map {bs bs' : List Blk} {f : Blk → List Nat} (h : bs'.map f = bs.map f) : bs'.flatMap f = bs.flatMap f := by
  rw [List.flatMap_def, List.flatMap_def, h]

/-- The selections that are recorded once. -/
theorem sameEntry_iff {cfg : Cfg} {x y : AW} (hx : AWF cfg x) (hy : AWF cfg y) :
    SameEntry cfg x y ↔ Shares cfg x y ∧ 8 < (selBytes cfg y.d y.bs).length := by
  have hix := recDims_eq_one_iff hx.sel
  have hiy := recDims_eq_one_iff hy.sel
  have hp : 0 < y.bs.length := List.length_pos_iff.mpr hy.sel.ne
  constructor
  · rintro ⟨h1, h2, h3, h4⟩
    refine ⟨?_, (selLen_iff hy).mpr ((dims_iff hy).mpr h3)⟩
    have hr : recDims x.d x.bs = recDims y.d y.bs := by
      rcases recDims_01 x.d x.bs with ha | ha <;> rcases recDims_01 y.d y.bs with hb | hb
      · rw [ha, hb]
      · have := hix.mpr (h2.mpr (hiy.mp hb)); omega
      · have := hiy.mpr (h2.mp (hix.mp ha)); omega
      · rw [ha, hb]
    have hsub : x.bs.map (fun b => b.start.drop (recDims y.d y.bs)) = y.bs.map (fun b => b.start.drop (recDims y.d y.bs)) ∧
        x.bs.map (fun b => b.count.drop (recDims y.d y.bs)) = y.bs.map (fun b => b.count.drop (recDims y.d y.bs)) := by
      rcases h1 with h1 | ⟨_, hc, h1⟩
      · rw [h1]; exact ⟨rfl, rfl⟩
      · rw [hiy.mpr hc]; exact map_fst_drop h1
    have hl : x.bs.length = y.bs.length := by
      have := congrArg List.length hsub.1
      simpa using this
    have hnd : x.d.ndim = y.d.ndim := by
      obtain ⟨bx, xs, ex⟩ := List.exists_cons_of_ne_nil hx.sel.ne
      obtain ⟨b, bs, e⟩ := List.exists_cons_of_ne_nil hy.sel.ne
      have l1 := (hx.sel.blk bx (by rw [ex]; simp)).hs
      have l2 := (hy.sel.blk b (by rw [e]; simp)).hs
      have e1 := hsub.1
      have q1 := recDims_le x.d x.bs
      have q2 := recDims_le y.d y.bs
      generalize recDims y.d y.bs = r at e1 q2 hr
      rw [ex, e] at e1
      simp only [List.map_cons, List.cons.injEq] at e1
      have := congrArg List.length e1.1
      simp only [List.length_drop, l1, l2] at this
      omega
    refine ⟨?_, hr⟩
    rw [selBytes_eq, selBytes_eq, hl]
    congr 2
    unfold coordWords
    have hfl : (wreqFlags cfg x.d x.bs).enc = (wreqFlags cfg y.d y.bs).enc := by
      rw [wreqFlags_enc, wreqFlags_enc, hl, hr, hnd]
    rw [hfl, hr]
    cases hE : (wreqFlags cfg y.d y.bs).enc with
    | false =>
      simp only [Bool.false_eq_true, if_false]
      unfold plainWords
      rw [flatMap_of_map hsub.1, flatMap_of_map hsub.2]
    | true =>
      simp only [if_true]
      have hE2 := hE
      rw [wreqFlags_enc] at hE2
      simp only [Bool.and_eq_true, decide_eq_true_eq] at hE2
      have hext := h4 hE2.2 hE2.1.1
      have ht : (x.d.dims.drop (recDims y.d y.bs)).tail = (y.d.dims.drop (recDims y.d y.bs)).tail := by
        rw [List.tail_drop, List.tail_drop]
        rcases recDims_01 y.d y.bs with h0 | h0
        · rw [h0]
          exact hext.2 (fun hc => by rw [← hiy, h0] at hc; omega)
        · rw [h0]
          exact hext.1 (hiy.mp h0)
      have hld : (x.d.dims.drop (recDims y.d y.bs)).length = (y.d.dims.drop (recDims y.d y.bs)).length := by
        rw [List.length_drop, List.length_drop]
        have : x.d.dims.length = y.d.dims.length := hnd
        rw [this]
      have hds := dsteps_tail ht hld
      rw [← dsteps_drop, ← dsteps_drop] at hds
      unfold encWords
      rw [hds, hnd]
      congr 2
      · have := congrArg (List.map (selEncode ((dsteps y.d.dims).drop (recDims y.d y.bs)))) hsub.1
        rw [List.map_map, List.map_map] at this
        exact this
      · have := congrArg (List.map (selEncode ((dsteps y.d.dims).drop (recDims y.d y.bs)))) hsub.2
        rw [List.map_map, List.map_map] at this
        exact this
  · rintro ⟨hs, h8⟩
    obtain ⟨i1, i2, i3, i4⟩ := selBytes_inj hx hy hs.2 hs.1
    have hkind : Confined x ↔ Confined y := by rw [← hix, ← hiy, hs.2]
    refine ⟨sameSel_of_shares hx hy hs, hkind, (dims_iff hy).mp ((selLen_iff hy).mp h8), ?_⟩
    intro hse hm
    have hcw := coordWords_eq hy hx i2 hs.1
    have key : (x.d.dims.drop (recDims y.d y.bs)).tail = (y.d.dims.drop (recDims y.d y.bs)).tail := by
      have hlx : (x.d.dims.drop (recDims y.d y.bs)).length = y.d.ndim - recDims y.d y.bs := by
        rw [List.length_drop]; rw [← i1]; rfl
      have hly : (y.d.dims.drop (recDims y.d y.bs)).length = y.d.ndim - recDims y.d y.bs := by
        rw [List.length_drop]; rfl
      by_cases hk : 1 < y.d.ndim - recDims y.d y.bs
      · have hey : (wreqFlags cfg y.d y.bs).enc = true := by
          rw [wreqFlags_enc]; simp [hse, hm, hk]
        have hex : (wreqFlags cfg x.d x.bs).enc = true := by
          rw [wreqFlags_enc, i2, hs.2, i1]; simp [hse, hm, hk]
        unfold coordWords at hcw
        rw [hey, hex] at hcw
        simp only [if_true] at hcw
        rw [hs.2, i1, dsteps_drop, dsteps_drop] at hcw
        have htk := (List.append_inj hcw (by
          simp only [List.length_take, dsteps_length, hlx, hly])).1
        obtain ⟨b, bs, eb⟩ := List.exists_cons_of_ne_nil hx.sel.ne
        have hpos := digits_pos ((hx.enc hex).dc b (by rw [eb]; simp))
        rw [hs.2] at hpos
        cases hcx : x.d.dims.drop (recDims y.d y.bs) with
        | nil => rw [hcx] at hlx; simp at hlx; omega
        | cons u us =>
          cases hcy : y.d.dims.drop (recDims y.d y.bs) with
          | nil => rw [hcy] at hly; simp at hly; omega
          | cons v vs =>
            rw [hcx] at hlx hpos htk
            rw [hcy] at hly htk
            simp only [List.length_cons] at hlx hly
            have e1 : y.d.ndim - recDims y.d y.bs - 1 = us.length := by omega
            have e2 : us.length = vs.length := by omega
            rw [e1] at htk
            simp only [List.tail_cons] at hpos ⊢
            refine dsteps_inj (a := u) (b := v) e2 hpos (htk.trans ?_)
            rw [e2]
      · have t1 : (x.d.dims.drop (recDims y.d y.bs)).tail = [] := by
          apply List.length_eq_zero_iff.mp; rw [List.length_tail]; omega
        have t2 : (y.d.dims.drop (recDims y.d y.bs)).tail = [] := by
          apply List.length_eq_zero_iff.mp; rw [List.length_tail]; omega
        rw [t1, t2]
    rw [List.tail_drop, List.tail_drop] at key
    refine ⟨fun hc => ?_, fun hc => ?_⟩
    · rw [hiy.mpr hc] at key; exact key
    · rcases recDims_01 y.d y.bs with h0 | h0
      · rw [h0] at key; exact key
      · exact absurd (hiy.mp h0) hc

end Verif
