import Verif.Lemmas.EncOK
import Verif.Model.Rank
import Verif.Spec.Log

namespace Verif

/-- Coordinate words of an entry. -/
def coordWords (cfg : Cfg) (d : DInfo) (bs : List Blk) : List Nat :=
  if (wreqFlags cfg d bs).enc then
    ((dsteps d.dims).drop (recDims d bs)).take (d.ndim - recDims d bs - 1)
      ++ encWords (dsteps d.dims) (recDims d bs) bs
  else plainWords (recDims d bs) bs

theorem wreqFlags_mul (cfg : Cfg) (d : DInfo) (bs : List Blk) :
    (wreqFlags cfg d bs).mul = decide (1 < bs.length) := rfl

theorem wreqFlags_recd (cfg : Cfg) (d : DInfo) (bs : List Blk) :
    (wreqFlags cfg d bs).recd = (recOf d bs).isSome := rfl

theorem wreqFlags_enc (cfg : Cfg) (d : DInfo) (bs : List Blk) :
    (wreqFlags cfg d bs).enc
      = (decide (1 < bs.length) && decide (1 < d.ndim - recDims d bs) && cfg.selEncode) := rfl

theorem selBytes_eq (cfg : Cfg) (d : DInfo) (bs : List Blk) :
    selBytes cfg d bs = (if 1 < bs.length then leN 4 bs.length else []) ++ putWords (coordWords cfg d bs) := by
  unfold selBytes coordWords
  rw [wreqFlags_enc]
  simp only [decide_eq_true_eq]
  congr 1
  by_cases hc : (decide (1 < bs.length) && decide (1 < d.ndim - recDims d bs) && cfg.selEncode) = true
  · rw [if_pos hc, putWords_append]; exact if_pos hc
  · rw [if_neg hc]; exact if_neg hc

/-- A write whose entry can be encoded without loss. -/
structure SelWF (cfg : Cfg) (d : DInfo) (bs : List Blk) : Prop where
  sel : Spec.SelOK d bs
  enc : (wreqFlags cfg d bs).enc = true → EncOK d.dims (recDims d bs) bs

theorem recDims_le (d : DInfo) (bs : List Blk) : recDims d bs ≤ d.ndim := by
  unfold recDims
  cases hr : recOf d bs with
  | none => simp
  | some n =>
    have := (recOf_some hr).1
    simp; omega

theorem coordWords_lt {cfg : Cfg} {d : DInfo} {bs : List Blk} (h : SelWF cfg d bs) :
    ∀ w ∈ coordWords cfg d bs, w < 2 ^ 64 := by
  intro w hw
  unfold coordWords at hw
  split at hw
  · rename_i hE
    rcases List.mem_append.mp hw with hw | hw
    · exact (h.enc hE).s64 w (List.mem_of_mem_take hw)
    · exact (h.enc hE).e64 w hw
  · unfold plainWords at hw
    rcases List.mem_append.mp hw with hw | hw
    · obtain ⟨b, hb, hw⟩ := List.mem_flatMap.mp hw
      exact (h.sel.blk b hb).s64 w (List.mem_of_mem_drop hw)
    · obtain ⟨b, hb, hw⟩ := List.mem_flatMap.mp hw
      exact (h.sel.blk b hb).c64 w (List.mem_of_mem_drop hw)

theorem coordWords_length {cfg : Cfg} {d : DInfo} {bs : List Blk} (h : SelWF cfg d bs) :
    (coordWords cfg d bs).length =
      if (wreqFlags cfg d bs).enc then (d.ndim - recDims d bs - 1) + 2 * bs.length
      else 2 * (d.ndim - recDims d bs) * bs.length := by
  unfold coordWords
  split
  · rw [List.length_append, List.length_take, List.length_drop, dsteps_length]
    simp only [encWords, List.length_append, List.length_map]
    show min _ (d.ndim - _) + _ = _
    omega
  · exact plainWords_length h.sel _

theorem rawCoords_coordWords {cfg : Cfg} {d : DInfo} {bs : List Blk} (h : SelWF cfg d bs) :
    rawCoords (wreqFlags cfg d bs).enc (d.ndim - recDims d bs) bs.length (coordWords cfg d bs)
      = .ok (bs.map (fun b => b.start.drop (recDims d bs)), bs.map (fun b => b.count.drop (recDims d bs))) := by
  unfold coordWords
  cases hE : (wreqFlags cfg d bs).enc with
  | false => simpa using rawCoords_plain h.sel _
  | true =>
    simp only [if_true]
    have : 1 < d.ndim - recDims d bs := by
      rw [wreqFlags_enc] at hE; simp at hE; omega
    exact rawCoords_enc h.sel (by omega) (h.enc hE)

theorem putWords_inj {a b : List Nat} (ha : ∀ w ∈ a, w < 2 ^ 64) (hb : ∀ w ∈ b, w < 2 ^ 64)
    (h : putWords a = putWords b) : a = b := by
  have hl : a.length = b.length := by
    have := congrArg List.length h
    simp at this; omega
  rw [← words_putWords a ha, ← words_putWords b hb, h, hl]

theorem leN_inj {k a b : Nat} (ha : a < 256 ^ k) (hb : b < 256 ^ k) (h : leN k a = leN k b) :
    a = b := by
  rw [← unle_leN_of_lt ha, ← unle_leN_of_lt hb, h]

/-- Equal selection bytes of two writes (both records or both not) mean equal dimensionality, equal
flags, and equal blocks up to the record number. -/
theorem selBytes_inj {cfg : Cfg} {d d' : DInfo} {bs bs' : List Blk} (h : SelWF cfg d bs)
    (h' : SelWF cfg d' bs') (hr : recDims d bs = recDims d' bs')
    (hs : selBytes cfg d bs = selBytes cfg d' bs') :
    d.ndim = d'.ndim ∧ bs.length = bs'.length ∧
      (bs.map (fun b => b.start.drop (recDims d bs)) = bs'.map (fun b => b.start.drop (recDims d bs))) ∧
      (bs.map (fun b => b.count.drop (recDims d bs)) = bs'.map (fun b => b.count.drop (recDims d bs))) := by
  have hp : 0 < bs.length := List.length_pos_iff.mpr h.sel.ne
  have hp' : 0 < bs'.length := List.length_pos_iff.mpr h'.sel.ne
  have hle := recDims_le d bs
  have hle' := recDims_le d' bs'
  rw [selBytes_eq, selBytes_eq] at hs
  -- block counts and words
  have key : bs.length = bs'.length ∧ coordWords cfg d bs = coordWords cfg d' bs' := by
    by_cases hm : 1 < bs.length <;> by_cases hm' : 1 < bs'.length
    · rw [if_pos hm, if_pos hm'] at hs
      have h4 : leN 4 bs.length = leN 4 bs'.length := by
        have := congrArg (List.take 4) hs
        rwa [take_app _ _ _ (by simp), take_app _ _ _ (by simp)] at this
      have h5 : putWords (coordWords cfg d bs) = putWords (coordWords cfg d' bs') := by
        have := congrArg (List.drop 4) hs
        rwa [drop_app _ _ _ (by simp), drop_app _ _ _ (by simp)] at this
      have := h.sel.len
      have := h'.sel.len
      exact ⟨leN_inj (by omega) (by omega) h4, putWords_inj (coordWords_lt h) (coordWords_lt h') h5⟩
    · rw [if_pos hm, if_neg hm'] at hs
      have := congrArg List.length hs
      simp at this
      omega
    · rw [if_neg hm, if_pos hm'] at hs
      have := congrArg List.length hs
      simp at this
      omega
    · rw [if_neg hm, if_neg hm'] at hs
      exact ⟨by omega, putWords_inj (coordWords_lt h) (coordWords_lt h') (by simpa using hs)⟩
  obtain ⟨hlen, hw⟩ := key
  have hwl := congrArg List.length hw
  rw [coordWords_length h, coordWords_length h', wreqFlags_enc, wreqFlags_enc, ← hlen] at hwl
  -- dimensionality
  have hdim : d.ndim - recDims d bs = d'.ndim - recDims d' bs' := by
    generalize d.ndim - recDims d bs = e at *
    generalize d'.ndim - recDims d' bs' = e' at *
    generalize bs.length = m at *
    have mulcase : ∀ a b : Nat, 2 * a * m = 2 * b * m → a = b := by
      intro a b hab
      have := Nat.eq_of_mul_eq_mul_right hp hab
      omega
    have big : ∀ a : Nat, 2 ≤ a → ∀ b, b ≤ 1 → a - 1 + 2 * m = 2 * b * m → False := by
      intro a ha b hb hab
      have : b = 0 ∨ b = 1 := by omega
      rcases this with rfl | rfl <;> omega
    by_cases c1 : (decide (1 < m) && decide (1 < e) && cfg.selEncode) = true <;>
      by_cases c2 : (decide (1 < m) && decide (1 < e') && cfg.selEncode) = true
    · rw [if_pos c1, if_pos c2] at hwl
      simp at c1 c2; omega
    · rw [if_pos c1, if_neg c2] at hwl
      simp at c1 c2
      exact (big e (by omega) e' (by
        rcases Nat.lt_or_ge 1 e' with hh | hh
        · have := c2 c1.1.1 hh; rw [this] at c1; simp at c1
        · exact hh) hwl).elim
    · rw [if_neg c1, if_pos c2] at hwl
      simp at c1 c2
      exact (big e' (by omega) e (by
        rcases Nat.lt_or_ge 1 e with hh | hh
        · have := c1 c2.1.1 hh; rw [this] at c2; simp at c2
        · exact hh) hwl.symm).elim
    · rw [if_neg c1, if_neg c2] at hwl
      exact mulcase _ _ hwl
  have hnd : d.ndim = d'.ndim := by omega
  have hflag : (wreqFlags cfg d bs).enc = (wreqFlags cfg d' bs').enc := by
    rw [wreqFlags_enc, wreqFlags_enc, hdim, hlen]
  have r1 := rawCoords_coordWords h
  have r2 := rawCoords_coordWords h'
  rw [hflag, hdim, hlen, hw, r2] at r1
  rw [Res.ok.injEq, Prod.mk.injEq] at r1
  rw [← hr] at r1
  exact ⟨hnd, hlen, r1.1.symm, r1.2.symm⟩

end Verif
