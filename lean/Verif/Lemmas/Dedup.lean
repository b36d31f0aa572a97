import Verif.Lemmas.ParseLog
import Verif.Model.Rank

namespace Verif

open Spec (AW)

/-- A write confined to a record and one that is not have entries of different size, so the table
never compares their selections. -/
def NoMixed (cfg : Cfg) (w w' : AW) : Prop :=
  (recOf w.d w.bs).isSome = (recOf w'.d w'.bs).isSome ∨
    (AW.plain cfg w 0 0).metaSize ≠ (AW.plain cfg w' 0 0).metaSize

/-- State of one process's queue between two metadata flushes: `xs` are the writes with their
requests. -/
structure RankInv (cfg : Cfg) (xs : List (AW × WReq)) (st : Rank) : Prop where
  reqs : st.wreqs = xs.map (·.2)
  size : st.mdsize = msize xs
  sec : IsSection cfg xs
  keys : ∀ k ∈ st.hash, ∃ p1 w k' p2, xs = p1 ++ (w, k') :: p2 ∧
    k' = AW.plain cfg w (msize p1) k'.foff ∧ k = AW.plain cfg w (msize p1) 0 ∧ First cfg p1 w
  cov : cfg.share = true → ∀ x ∈ xs, 8 < (selBytes cfg x.1.d x.1.bs).length →
    ∃ w mo, AW.plain cfg w mo 0 ∈ st.hash ∧ Shares cfg w x.1

theorem RankInv.init (cfg : Cfg) : RankInv cfg [] Rank.init :=
  ⟨rfl, rfl, by intro p x q h; simp at h, by intro k hk; simp [Rank.init] at hk, by simp⟩

theorem plain_metaSize (cfg : Cfg) (w : AW) (mo : Nat) (foff : Int) :
    (AW.plain cfg w mo foff).metaSize =
      28 + (if (recOf w.d w.bs).isSome then 8 else 0) + (selBytes cfg w.d w.bs).length := rfl

theorem wreqEq_plain {cfg : Cfg} {w w' : AW} (h : NoMixed cfg w w') (mo mo' : Nat) :
    ∃ b, wreqEq (AW.plain cfg w mo 0) (AW.plain cfg w' mo' 0) = .ok b ∧
      (b = true → recDims w'.d w'.bs = recDims w.d w.bs ∧
        selBytes cfg w'.d w'.bs = selBytes cfg w.d w.bs) := by
  unfold wreqEq
  by_cases hsz : (AW.plain cfg w mo 0).metaSize = (AW.plain cfg w' mo' 0).metaSize
  case neg => exact ⟨false, if_pos hsz, by simp⟩
  · rw [if_neg (not_not_intro hsz)]
    unfold NoMixed at h
    simp only [plain_metaSize] at h hsz
    have he : (recOf w.d w.bs).isSome = (recOf w'.d w'.bs).isSome := by
      rcases h with h | h
      · exact h
      · exact absurd hsz h
    rw [he] at hsz
    have hl : (selBytes cfg w.d w.bs).length = (selBytes cfg w'.d w'.bs).length := by omega
    have e1 : (AW.plain cfg w mo 0).selBuf = selBytes cfg w.d w.bs := rfl
    have e2 : (AW.plain cfg w' mo' 0).selBuf = selBytes cfg w'.d w'.bs := rfl
    rw [e1, e2, if_neg (by omega)]
    refine ⟨_, rfl, ?_⟩
    intro hb
    simp only [decide_eq_true_eq] at hb
    rw [hl, List.take_length] at hb
    exact ⟨by unfold recDims; rw [he], hb.symm⟩

/-- Requests with the same selection compare equal and have the same hash code. -/
theorem wreqEq_shares {cfg : Cfg} {w w' : AW} (h : Shares cfg w' w) (mo mo' : Nat) :
    wreqEq (AW.plain cfg w mo 0) (AW.plain cfg w' mo' 0) = .ok true ∧
      wreqHash (AW.plain cfg w mo 0) = wreqHash (AW.plain cfg w' mo' 0) := by
  have e1 : (AW.plain cfg w mo 0).selBuf = selBytes cfg w.d w.bs := rfl
  have e2 : (AW.plain cfg w' mo' 0).selBuf = selBytes cfg w'.d w'.bs := rfl
  constructor
  · unfold wreqEq
    rw [e1, e2, h.1, plain_metaSize, plain_metaSize, recOf_isSome_of h.2, h.1]
    simp
  · unfold wreqHash
    rw [e1, e2, h.1]

/-- The lookup finds a key if there is one. -/
theorem hashFind_complete {cfg : Cfg} {w : AW} {mo : Nat} (ks : List WReq)
    (hn : hashFind (AW.plain cfg w mo 0) ks = .ok none) :
    ∀ w' mo', AW.plain cfg w' mo' 0 ∈ ks → ¬ Shares cfg w' w := by
  induction ks with
  | nil => intro w' mo' h; simp at h
  | cons k ks ih =>
    intro w' mo' hk hs
    obtain ⟨e1, e2⟩ := wreqEq_shares hs mo mo'
    unfold hashFind at hn
    rcases List.mem_cons.mp hk with h | h
    · rw [← h, if_pos e2, e1] at hn
      simp at hn
    · split at hn
      · cases hb : wreqEq (AW.plain cfg w mo 0) k with
        | err => rw [hb] at hn; simp at hn
        | ub => rw [hb] at hn; simp at hn
        | ok b =>
          rw [hb] at hn
          cases b with
          | true => simp at hn
          | false => exact ih (by simpa using hn) w' mo' h hs
      · exact ih hn w' mo' h hs

/-- Lookup either fails or finds the key of an earlier write with the same selection. -/
theorem hashFind_spec {cfg : Cfg} {w : AW} {mo : Nat} (ks : List WReq)
    (h : ∀ k ∈ ks, ∃ w' mo', k = AW.plain cfg w' mo' 0 ∧ NoMixed cfg w w') :
    hashFind (AW.plain cfg w mo 0) ks = .ok none ∨
    ∃ k ∈ ks, hashFind (AW.plain cfg w mo 0) ks = .ok (some k) ∧
      ∀ w' mo', k = AW.plain cfg w' mo' 0 → NoMixed cfg w w' →
        recDims w'.d w'.bs = recDims w.d w.bs ∧ selBytes cfg w'.d w'.bs = selBytes cfg w.d w.bs := by
  induction ks with
  | nil => exact Or.inl rfl
  | cons k ks ih =>
    have ih := ih (fun k' hk' => h k' (by simp [hk']))
    obtain ⟨w', mo', hk, hnm⟩ := h k (by simp)
    obtain ⟨b, hb, hbt⟩ := wreqEq_plain hnm mo mo'
    unfold hashFind
    by_cases hh : wreqHash (AW.plain cfg w mo 0) = wreqHash k
    · rw [if_pos hh, hk, hb]
      simp only [Res.ok_bind]
      cases b with
      | true =>
        right
        refine ⟨AW.plain cfg w' mo' 0, by simp, rfl, ?_⟩
        intro w2 mo2 hk2 hnm2
        obtain ⟨b2, hb2, hbt2⟩ := wreqEq_plain hnm2 mo mo2
        rw [← hk2, hb] at hb2
        injection hb2 with hb2
        exact hbt2 hb2.symm
      | false =>
        simp only [Bool.false_eq_true, if_false]
        rcases ih with ih | ⟨k', hk', ih⟩
        · exact Or.inl ih
        · exact Or.inr ⟨k', by simp [hk'], ih⟩
    · rw [if_neg hh]
      rcases ih with ih | ⟨k', hk', ih⟩
      · exact Or.inl ih
      · exact Or.inr ⟨k', by simp [hk'], ih⟩

theorem isSection_snoc {cfg : Cfg} {xs : List (AW × WReq)} {w : AW} {r : WReq}
    (h : IsSection cfg xs) (he : SecElem cfg xs w r) : IsSection cfg (xs ++ [(w, r)]) := by
  intro pre x post hsp
  rcases split_snoc hsp with ⟨h2, h1, h3⟩ | ⟨p2', h2, h1⟩
  · subst h1; subst h3; exact he
  · exact h pre x p2' h1

/-- One write appends one request whose selection is recorded in full or by reference to an
earlier entry with the same selection. -/
theorem writeRank_inv {cfg : Cfg} {xs : List (AW × WReq)} {st : Rank} (h : RankInv cfg xs st)
    {w : AW} (hne : w.bs ≠ []) (hnm : cfg.share = true → ∀ x ∈ xs, NoMixed cfg w x.1) :
    ∃ st' r, writeRank cfg w.d w.did w.bs w.data st = .ok st' ∧
      RankInv cfg (xs ++ [(w, r)]) st' ∧ st'.nflushed = st.nflushed ∧ r.data = w.data := by
  have hmk : mkWReq cfg w.d w.did w.bs st.mdsize w.data = AW.plain cfg w (msize xs) 0 := by
    rw [h.size]; rfl
  have hkeys : ∀ r, ∀ k ∈ st.hash, ∃ p1 w1 k' p2, xs ++ [(w, r)] = p1 ++ (w1, k') :: p2 ∧
      k' = AW.plain cfg w1 (msize p1) k'.foff ∧ k = AW.plain cfg w1 (msize p1) 0 ∧ First cfg p1 w1 := by
    intro r k hk
    obtain ⟨p1, w1, k', p2, e1, e2, e3⟩ := h.keys k hk
    exact ⟨p1, w1, k', p2 ++ [(w, r)], by rw [e1]; simp, e2, e3⟩
  unfold writeRank
  rw [if_neg hne, hmk]
  unfold dedup
  by_cases hc : (cfg.share && decide (8 < (AW.plain cfg w (msize xs) 0).selBuf.length)) = true
  · rw [if_pos hc]
    simp only [Bool.and_eq_true, decide_eq_true_eq] at hc
    have hks : ∀ k ∈ st.hash, ∃ w' mo', k = AW.plain cfg w' mo' 0 ∧ NoMixed cfg w w' := by
      intro k hk
      obtain ⟨p1, w1, k', p2, e1, e2, e3⟩ := h.keys k hk
      exact ⟨w1, msize p1, e3.1, hnm hc.1 (w1, k') (by rw [e1]; simp)⟩
    rcases hashFind_spec (mo := msize xs) st.hash hks with hf | ⟨k, hk, hf, hkp⟩
    · rw [hf]
      simp only [Res.ok_bind, Res.pure_eq]
      have hno : ∀ x ∈ xs, ¬ Shares cfg x.1 w := by
        intro x hx hs
        obtain ⟨w', mo', hk, hs'⟩ := h.cov hc.1 x hx (by rw [hs.1]; exact hc.2)
        exact hashFind_complete _ hf w' mo' hk (hs'.trans hs)
      refine ⟨_, AW.plain cfg w (msize xs) 0, rfl,
        ⟨?_, ?_, isSection_snoc h.sec (Or.inl ⟨rfl, fun _ _ => hno⟩), ?_, ?_⟩, rfl, rfl⟩
      · simp [h.reqs]
      · simp [h.size]
      · intro k hk
        simp only [List.mem_append, List.mem_singleton] at hk
        rcases hk with hk | hk
        · exact hkeys _ k hk
        · exact ⟨xs, w, _, [], rfl, rfl, hk, hc.2, hno⟩
      · intro hsh x hx hlen
        simp only [List.mem_append, List.mem_singleton] at hx ⊢
        rcases hx with hx | rfl
        · obtain ⟨w', mo', hk, hs'⟩ := h.cov hsh x hx hlen
          exact ⟨w', mo', Or.inl hk, hs'⟩
        · exact ⟨w, _, Or.inr rfl, rfl, rfl⟩
    · rw [hf]
      simp only [Res.ok_bind, Res.pure_eq]
      obtain ⟨p1, w1, k', p2, e1, e2, e3, efi⟩ := h.keys k hk
      obtain ⟨hrd, hsb⟩ := hkp w1 (msize p1) e3 (hnm hc.1 (w1, k') (by rw [e1]; simp))
      have hr : mkRef (AW.plain cfg w (msize xs) 0) k st.mdsize
          = AW.refTo cfg w w1 (msize p1) (msize xs) 0 := by
        rw [e3, h.size]; rfl
      rw [hr]
      refine ⟨_, AW.refTo cfg w w1 (msize p1) (msize xs) 0, rfl,
        ⟨?_, ?_, isSection_snoc h.sec ?_, ?_, ?_⟩, rfl, rfl⟩
      · simp [h.reqs]
      · simp [h.size]
      · exact Or.inr ⟨p1, w1, k', p2, e1, e2, hc.1, hsb, hrd, efi.of_shares ⟨hsb, hrd⟩, rfl⟩
      · exact hkeys _
      · intro hsh x hx hlen
        simp only [List.mem_append, List.mem_singleton] at hx
        rcases hx with hx | rfl
        · exact h.cov hsh x hx hlen
        · exact ⟨w1, msize p1, by rw [← e3]; exact hk, hsb, hrd⟩
  · rw [if_neg hc]
    simp only [Res.ok_bind, Res.pure_eq]
    simp only [Bool.and_eq_true, decide_eq_true_eq] at hc
    refine ⟨_, AW.plain cfg w (msize xs) 0, rfl, ⟨?_, ?_, isSection_snoc h.sec
      (Or.inl ⟨rfl, fun hs hl => absurd ⟨hs, hl⟩ hc⟩), ?_, ?_⟩, rfl, rfl⟩
    · simp [h.reqs]
    · simp [h.size]
    · exact hkeys _
    · intro hsh x hx hlen
      simp only [List.mem_append, List.mem_singleton] at hx
      rcases hx with hx | rfl
      · exact h.cov hsh x hx hlen
      · exact absurd ⟨hsh, hlen⟩ hc

/-- Without encoding, sizes of entries of record writes and of other writes never coincide; with
encoding they may only coincide for multi-block writes. -/
theorem noMixed_of {cfg : Cfg} {w w' : AW} (hw : Spec.SelOK w.d w.bs) (hw' : Spec.SelOK w'.d w'.bs)
    (h : cfg.selEncode = true → 1 < w.bs.length → 1 < w'.bs.length →
      (recOf w.d w.bs).isSome = (recOf w'.d w'.bs).isSome) : NoMixed cfg w w' := by
  by_cases hi : (recOf w.d w.bs).isSome = (recOf w'.d w'.bs).isSome
  · exact Or.inl hi
  right
  have key : ∀ v : AW, Spec.SelOK v.d v.bs → ¬ (cfg.selEncode = true ∧ 1 < v.bs.length) →
      ∃ m, (AW.plain cfg v 0 0).metaSize =
        16 * m + 28 + (if (recOf v.d v.bs).isSome then 8 else 0) + (if 1 < v.bs.length then 4 else 0) := by
    intro v hv hn
    rw [plain_metaSize]
    unfold selBytes
    have henc : (decide (1 < v.bs.length) && decide (1 < v.d.ndim - (if (recOf v.d v.bs).isSome then 1 else 0))
        && cfg.selEncode) = false := by
      rcases Bool.eq_false_or_eq_true cfg.selEncode with h1 | h1
      · have : ¬ 1 < v.bs.length := fun h2 => hn ⟨h1, h2⟩
        simp [this]
      · simp [h1]
    simp only [henc, Bool.false_eq_true, if_false, List.length_append, putWords_length,
      plainWords_length hv, decide_eq_true_eq]
    refine ⟨(v.d.ndim - (if (recOf v.d v.bs).isSome then 1 else 0)) * v.bs.length, ?_⟩
    rw [Nat.mul_assoc 2]
    split <;> split <;> simp <;> omega
  have mulSize : ∀ v : AW, 1 < v.bs.length → ∃ m, (AW.plain cfg v 0 0).metaSize = 8 * m := by
    intro v hm
    have hk : ∃ k, (selBytes cfg v.d v.bs).length = 4 + 8 * k := by
      unfold selBytes
      simp only [hm, decide_true, if_true, List.length_append, leN_length]
      by_cases hc : (true && decide (1 < v.d.ndim - (if (recOf v.d v.bs).isSome then 1 else 0))
        && cfg.selEncode) = true
      · rw [if_pos hc, List.length_append, putWords_length, putWords_length, ← Nat.mul_add]
        exact ⟨_, rfl⟩
      · rw [if_neg hc, putWords_length]
        exact ⟨_, rfl⟩
    obtain ⟨k, hk⟩ := hk
    rw [plain_metaSize, hk]
    by_cases hr : (recOf v.d v.bs).isSome = true
    · rw [if_pos hr]; exact ⟨5 + k, by omega⟩
    · rw [if_neg hr]; exact ⟨4 + k, by omega⟩
  have singleSize : ∀ v : AW, Spec.SelOK v.d v.bs → ¬ 1 < v.bs.length →
      ∃ m, (AW.plain cfg v 0 0).metaSize =
        16 * m + 28 + (if (recOf v.d v.bs).isSome then 8 else 0) := by
    intro v hv hm
    obtain ⟨m, hm2⟩ := key v hv (fun h => hm h.2)
    exact ⟨m, by rw [hm2, if_neg hm, Nat.add_zero]⟩
  intro heq
  by_cases h1 : 1 < w.bs.length <;> by_cases h2 : 1 < w'.bs.length
  · have hne : ¬ cfg.selEncode = true := fun he => hi (h he h1 h2)
    obtain ⟨m, e1⟩ := key w hw (fun h => hne h.1)
    obtain ⟨m', e2⟩ := key w' hw' (fun h => hne h.1)
    rw [e1, e2, if_pos h1, if_pos h2] at heq
    revert hi heq
    cases (recOf w.d w.bs).isSome <;> cases (recOf w'.d w'.bs).isSome <;> simp <;> omega
  · obtain ⟨m, e1⟩ := mulSize w h1
    obtain ⟨m', e2⟩ := singleSize w' hw' h2
    rw [e1, e2] at heq
    revert heq
    split <;> omega
  · obtain ⟨m, e1⟩ := singleSize w hw h1
    obtain ⟨m', e2⟩ := mulSize w' h2
    rw [e1, e2] at heq
    revert heq
    split <;> omega
  · obtain ⟨m, e1⟩ := singleSize w hw h1
    obtain ⟨m', e2⟩ := singleSize w' hw' h2
    rw [e1, e2] at heq
    revert hi heq
    cases (recOf w.d w.bs).isSome <;> cases (recOf w'.d w'.bs).isSome <;> simp <;> omega

end Verif
