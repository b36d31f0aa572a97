import Verif.Lemmas.Run
import Verif.Lemmas.Search
import Verif.Spec.Index

namespace Verif

open Spec (AW Confined Recordable SameSel Known)

theorem recOf_isSome_iff {w : AW} (h : Spec.SelOK w.d w.bs) :
    (recOf w.d w.bs).isSome = true ↔ Confined w := by
  constructor
  · intro hr
    obtain ⟨n, hn⟩ := Option.isSome_iff_exists.mp hr
    refine ⟨?_, n, (recOf_some hn).2⟩
    unfold recOf at hn
    split at hn
    · rename_i hc; exact hc.2
    · simp at hn
  · rintro ⟨h1, n, h2⟩
    have hne := h.ne
    cases hb : w.bs with
    | nil => exact absurd hb hne
    | cons b bs =>
      have hb0 := h2 b (by rw [hb]; simp)
      have hnd : w.d.ndim ≠ 0 := by
        have := (h.blk b (by rw [hb]; simp)).hs
        intro h0
        rw [h0] at this
        rw [List.length_eq_zero_iff.mp this] at hb0
        simp at hb0
      unfold recOf
      rw [if_pos ⟨hnd, h1⟩]
      have hall : ((b :: bs).all fun x => x.count.head? == some 1 && x.start.head? == b.start.head?) = true := by
        rw [List.all_eq_true]
        intro x hx
        have := h2 x (by rw [hb]; exact hx)
        simp [this.1, this.2, hb0.1]
      simp only [hall, if_true]
      rw [hb0.1]; rfl

theorem recDims_eq_one_iff {w : AW} (h : Spec.SelOK w.d w.bs) :
    recDims w.d w.bs = 1 ↔ Confined w := by
  rw [← recOf_isSome_iff h]
  unfold recDims
  cases (recOf w.d w.bs).isSome <;> simp

theorem recDims_01 (d : DInfo) (bs : List Blk) : recDims d bs = 0 ∨ recDims d bs = 1 := by
  unfold recDims; split <;> simp

theorem notFullWidth_mono {dims : List Nat} {b : Blk} {k j : Nat} (h : Spec.NotFullWidth k dims b)
    (hk : k ≤ j) : Spec.NotFullWidth j dims b := fun i hi hc hd => h i (by omega) hc hd

theorem Spec.Encodable.expressible {w : Spec.AW} (h : Spec.Encodable w) : Spec.Expressible w := by
  by_cases hne : w.bs = []
  · refine ⟨by simp [hne], h.width, h.small, by simp [hne]⟩
  have hpos : ∀ x ∈ w.d.dims, 0 < x := by
    obtain ⟨b, bs', hbs⟩ := List.exists_cons_of_ne_nil hne
    obtain ⟨h1, h2, h3⟩ := h.ext b (by simp [hbs])
    have h4 := h.ne b (by simp [hbs])
    intro x hx
    obtain ⟨i, hi, rfl⟩ := List.getElem_of_mem hx
    have := h3 i (by omega) (by omega) hi
    have := h4 b.count[i] (List.getElem_mem _)
    omega
  refine ⟨fun b hb => ?_, h.width, h.small, fun b hb i hi => ?_⟩
  · obtain ⟨h1, h2, h3⟩ := h.ext b hb
    refine ⟨h1, h2, fun i a1 a2 => ?_⟩
    have := h3 i a1 (by omega) a2
    have := h.ne b hb b.count[i] (List.getElem_mem _)
    omega
  · obtain ⟨h1, h2, h3⟩ := h.ext b hb
    have h5 := h3 i (by omega) hi (by omega)
    have h6 := prod_drop_le hpos i
    have hi' : i < w.d.dims.length := by omega
    rw [List.drop_eq_getElem_cons hi', prod_cons] at h6
    have h7 : b.count[i] * prod (w.d.dims.drop (i + 1)) ≤ w.d.dims[i] * prod (w.d.dims.drop (i + 1)) :=
      Nat.mul_le_mul_right _ (by omega)
    have h8 : 1 * prod (w.d.dims.drop (i + 1)) ≤ w.d.dims[i] * prod (w.d.dims.drop (i + 1)) :=
      Nat.mul_le_mul_right _ (hpos _ (List.getElem_mem hi'))
    have h9 := h.small
    rw [Nat.add_mul]
    omega

theorem Spec.Recordable.awf {cfg : Cfg} {w : AW} {o : Int} (h : Recordable cfg w o) : AWF cfg w := by
  refine ⟨h.sel, ?_⟩
  intro he
  have he' : cfg.selEncode = true ∧ 1 < w.bs.length := by
    rw [wreqFlags_enc] at he
    simp only [Bool.and_eq_true, decide_eq_true_eq] at he
    exact ⟨he.2, he.1.1⟩
  obtain ⟨h1, h2, h3, h4⟩ := h.enc he'.1 he'.2
  refine encOK_of h1 (fun b hb => ?_) h.sel.ne h3 h4
  rcases h2 with h3 | ⟨hc, h3⟩
  · exact notFullWidth_mono (h3 b hb) (by omega)
  · rw [(recDims_eq_one_iff h.sel).mpr hc]; exact h3 b hb

theorem selBytes_length_le {cfg : Cfg} {w : AW} (h : AWF cfg w) :
    (selBytes cfg w.d w.bs).length ≤ 4 + 8 * w.d.ndim + 16 * (w.d.ndim * w.bs.length) := by
  rw [selBytes_eq, List.length_append, putWords_length, coordWords_length h]
  have h1 : (if 1 < w.bs.length then leN 4 w.bs.length else []).length ≤ 4 := by
    split <;> simp
  have h2 : (if (wreqFlags cfg w.d w.bs).enc = true then
      w.d.ndim - recDims w.d w.bs - 1 + 2 * w.bs.length else
      2 * (w.d.ndim - recDims w.d w.bs) * w.bs.length) ≤ w.d.ndim + 2 * (w.d.ndim * w.bs.length) := by
    split
    · rename_i he
      rw [wreqFlags_enc] at he
      simp only [Bool.and_eq_true, decide_eq_true_eq] at he
      have : 1 * w.bs.length ≤ w.d.ndim * w.bs.length := Nat.mul_le_mul_right _ (by omega)
      omega
    · have := Nat.mul_le_mul_right w.bs.length (Nat.sub_le w.d.ndim (recDims w.d w.bs))
      rw [Nat.mul_assoc]
      omega
  omega

theorem Spec.Recordable.fits {cfg : Cfg} {w : AW} {o : Int} (h : Recordable cfg w o) : WFits cfg w o := by
  have h1 := selBytes_length_le h.awf
  have h2 := h.rep.sz
  exact ⟨h.rep.did, by omega, h.rep.data, h.rep.lo, h.rep.hi⟩

theorem sameSel_of_shares {cfg : Cfg} {w' w : AW} (h' : AWF cfg w') (h : AWF cfg w)
    (hs : Shares cfg w' w) : SameSel w' w := by
  obtain ⟨_, _, h1, h2⟩ := selBytes_inj h' h hs.2 hs.1
  rcases recDims_01 w'.d w'.bs with h0 | h0
  · left
    rw [h0] at h1 h2
    simp only [List.drop_zero] at h1 h2
    apply List.ext_getElem
    · have := congrArg List.length h1; simpa using this
    · intro i a b
      have e1 : (w'.bs[i]).start = (w.bs[i]).start := by
        have := List.getElem_of_eq h1 (i := i) (by simpa using a)
        simpa using this
      have e2 : (w'.bs[i]).count = (w.bs[i]).count := by
        have := List.getElem_of_eq h2 (i := i) (by simpa using a)
        simpa using this
      cases hx : w'.bs[i]; cases hy : w.bs[i]
      simp_all
  · right
    have h0' : recDims w.d w.bs = 1 := by rw [← hs.2]; exact h0
    refine ⟨(recDims_eq_one_iff h'.sel).mp h0, (recDims_eq_one_iff h.sel).mp h0', ?_⟩
    rw [h0] at h1 h2
    have := congrArg₂ List.zip h1 h2
    rw [List.zip_map', List.zip_map'] at this
    exact this

/-- Same record, same selection: same blocks. -/
theorem bs_eq_of_shares {cfg : Cfg} {w' w : AW} {n : Nat} (h' : AWF cfg w') (h : AWF cfg w)
    (hs : Shares cfg w' w) (h1 : recOf w'.d w'.bs = some n) (h2 : recOf w.d w.bs = some n) :
    w'.bs = w.bs := by
  have e1 := recMap_share h' h hs.2 hs.1
  have e2 := recMap_self (d := w.d) (bs := w.bs)
  rw [h2] at e2
  rw [h1] at e1
  rw [e1, e2]

theorem epochOK_of {cfg : Cfg} {p : List (AW × Int)} (h : ∀ x ∈ p, Recordable cfg x.1 x.2)
    (hm : cfg.share = true → Spec.NoMix cfg (p.map Prod.fst)) : EpochOK cfg (p.map Prod.fst) := by
  constructor
  · intro w hw
    rw [List.mem_map] at hw
    obtain ⟨x, hx, rfl⟩ := hw
    exact (h x hx).sel.ne
  · intro hs
    have hsel : ∀ w ∈ p.map Prod.fst, Spec.SelOK w.d w.bs := by
      intro w hw
      rw [List.mem_map] at hw
      obtain ⟨x, hx, rfl⟩ := hw
      exact (h x hx).sel
    by_cases he : cfg.selEncode = true
    · refine List.Pairwise.imp_of_mem ?_ (hm hs he)
      intro w' w hw' hw hh
      refine noMixed_of (hsel w hw) (hsel w' hw') (fun _ a b => ?_)
      rw [Bool.eq_iff_iff, recOf_isSome_iff (hsel w hw), recOf_isSome_iff (hsel w' hw')]
      exact hh a b
    · refine List.Pairwise.imp_of_mem (R := fun _ _ => True) ?_ (List.pairwise_of_forall (fun _ _ => trivial))
      intro w' w hw' hw _
      exact noMixed_of (hsel w hw) (hsel w' hw') (fun h => absurd h he)

theorem msize_le {xs : List (AW × WReq)} (h : ∀ x ∈ xs, x.2.metaSize ≤ 2 ^ 31) :
    msize xs ≤ xs.length * 2 ^ 31 := by
  induction xs with
  | nil => simp
  | cons x xs ih =>
    have := ih (fun y hy => h y (by simp [hy]))
    have := h x (by simp)
    simp only [msize_cons, List.length_cons]
    omega

theorem present_eq_linked : Spec.present = linked := rfl

theorem pairwise_split {α : Type} {R : α → α → Prop} {p q s : List α} {x y : α}
    (h : (p ++ x :: (q ++ y :: s)).Pairwise R) : R x y := by
  rw [List.pairwise_append] at h
  have h2 := h.2.1
  rw [List.pairwise_cons] at h2
  exact h2.1 y (by simp)

/-- A recorded section is readable. -/
theorem secOK_of {cfg : Cfg} {dsets : DSets} {xs : List (AW × WReq)} (hs : IsSection cfg xs)
    (h : ∀ x ∈ xs, Recordable cfg x.1 x.2.foff) (hk : ∀ x ∈ xs, Known dsets x.1)
    (hl : xs.length < 2 ^ 31)
    (hp : cfg.share = true → xs.Pairwise (fun x y => SameSel x.1 y.1 →
      Spec.present dsets y.1.did = true → Spec.present dsets x.1.did = true)) :
    SecOK cfg dsets xs := by
  have hfit : ∀ x ∈ xs, x.2.hdr.Fits := by
    intro x hx
    obtain ⟨p, q, e⟩ := List.append_of_mem hx
    exact (h x hx).fits.hdr (hs p x q e)
  refine ⟨hs, fun x hx => (h x hx).awf, hfit, ?_, fun x hx => ⟨(hk x hx).lt, (hk x hx).same⟩, ?_⟩
  · have := msize_le (xs := xs) (fun x hx => by
      have := (hfit x hx).m1
      have e : x.2.hdr.metaSize = (x.2.metaSize : Int) := rfl
      rw [e] at this
      omega)
    have : xs.length * 2 ^ 31 < 2 ^ 31 * 2 ^ 31 := Nat.mul_lt_mul_of_pos_right hl (by decide)
    omega
  · rintro hsh p x ⟨q, y, s, e, hxy, hy⟩
    have hx : x ∈ xs := by rw [e]; simp
    have hy' : y ∈ xs := by rw [e]; simp
    have := hp hsh
    rw [e] at this
    exact pairwise_split this (sameSel_of_shares (h x hx).awf (h y hy').awf hxy) hy

theorem listShare_of {cfg : Cfg} {xs : List (AW × WReq)}
    (h : ∀ x ∈ xs, Recordable cfg x.1 x.2.foff)
    (hp : cfg.share = true → xs.Pairwise (fun x y => SameSel x.1 y.1 →
      x.1.d.esize = y.1.d.esize ∨ y.1.bs.length = 1)) : ListShare cfg xs := by
  intro hsh p x q y s e hxy
  have hx : x ∈ xs := by rw [e]; simp
  have hy' : y ∈ xs := by rw [e]; simp
  have := hp hsh
  rw [e] at this
  exact pairwise_split this (sameSel_of_shares (h x hx).awf (h y hy').awf hxy)

theorem compactShare_of {cfg : Cfg} {xs : List (AW × WReq)}
    (h : ∀ x ∈ xs, Recordable cfg x.1 x.2.foff)
    (hp : cfg.share = true → xs.Pairwise (fun x y => Confined y.1 → x.1.bs ≠ y.1.bs)) :
    CompactShare cfg xs := by
  intro hsh p x q y s e hxy n hn hn'
  have hx : x ∈ xs := by rw [e]; simp
  have hy' : y ∈ xs := by rw [e]; simp
  have := hp hsh
  rw [e] at this
  refine pairwise_split this ?_ (bs_eq_of_shares (h x hx).awf (h y hy').awf hxy hn' hn)
  rw [← recOf_isSome_iff (h y hy').sel, hn]; rfl

/-- What a compact entry denotes. -/
theorem compactSels_ok {x : AW × WReq} {e : CEnt} {d : DInfo} (he : CEntOK x e)
    (hw : Spec.SelOK x.1.d x.1.bs) (hd : DSame d x.1.d)
    (hrec : ∀ n, recOf x.1.d x.1.bs = some n → n < 2 ^ 63) :
    Spec.compactSels d e = .ok (Spec.sels x.1.d.esize x.1.bs) := by
  obtain ⟨_, hfo, hfs, hre, hbl⟩ := he
  unfold Spec.compactSels
  rw [hbl]
  simp only
  rw [hre]
  cases hrc : recOf x.1.d x.1.bs with
  | none =>
    have hr0 : recDims x.1.d x.1.bs = 0 := by unfold recDims; rw [hrc]; rfl
    simp only
    rw [if_neg (by omega), hr0, hd.1, hd.2]
    have hcb := cblocks_flat (k := x.1.d.ndim) (r := 0) (bs := x.1.bs)
      (fun b hb => ⟨by rw [(hw.blk b hb).hs]; rfl, by rw [(hw.blk b hb).hc]; rfl⟩)
    rw [hcb]
    simp only [Res.ok_bind, List.drop_zero, List.map_id', Res.pure_eq, Res.ok.injEq]
    exact sels_eq_blkDoffs _ _
  | some n =>
    have hr1 : recDims x.1.d x.1.bs = 1 := by unfold recDims; rw [hrc]; rfl
    have hheads := (recOf_some hrc).2
    have hn := hrec n hrc
    have hs8 : signed 8 n = n := by
      unfold signed
      rw [if_pos]
      have : (256 ^ 8 : Nat) = 18446744073709551616 := rfl
      rw [this]; omega
    simp only
    rw [hs8, if_pos (by omega), hr1, hd.1, hd.2]
    have hnd : 1 ≤ x.1.d.ndim := by have := recDims_le x.1.d x.1.bs; omega
    have hcb := cblocks_flat (k := x.1.d.ndim - 1) (r := 1) (bs := x.1.bs)
      (fun b hb => ⟨by rw [(hw.blk b hb).hs]; omega, by rw [(hw.blk b hb).hc]; omega⟩)
    rw [hcb]
    simp only [Res.ok_bind, List.map_map, Res.pure_eq, Res.ok.injEq]
    rw [sels_eq_blkDoffs]
    congr 1
    conv => rhs; rw [← List.map_id x.1.bs]
    apply List.map_congr_left
    intro b hb
    have h1 := head_drop (hheads b hb).1
    have h2 := head_drop (hheads b hb).2
    simp only [Function.comp, Int.toNat_natCast, id]
    rw [h1, h2]

end Verif
