import Verif.Lemmas.Box
import Verif.Lemmas.Sort
import Mathlib.Data.List.Nodup
import Mathlib.Data.List.Perm.Basic

namespace Verif

theorem Res.bind_ok {α β : Type} {x : Res α} {f : α → Res β} {b : β} (h : (x >>= f) = .ok b) :
    ∃ a, x = .ok a ∧ f a = .ok b := by
  cases x with
  | ok a => exact ⟨a, rfl, h⟩
  | err => simp at h
  | ub => simp at h

theorem Res.pure_ok {α : Type} {a b : α} (h : (pure a : Res α) = .ok b) : a = b := by
  injection h

theorem pairwise_mem {α : Type} {R : α → α → Prop} {l : List α} (h : l.Pairwise R) :
    ∀ {a b}, a ∈ l → b ∈ l → a = b ∨ R a b ∨ R b a := by
  induction h with
  | nil => simp
  | @cons x l hx _ ih =>
    intro a b ha hb
    rcases List.mem_cons.mp ha with ha | ha
    · rcases List.mem_cons.mp hb with hb | hb
      · exact Or.inl (ha.trans hb.symm)
      · exact Or.inr (Or.inl (ha ▸ hx _ hb))
    · rcases List.mem_cons.mp hb with hb | hb
      · exact Or.inr (Or.inr (hb ▸ hx _ ha))
      · exact ih ha hb

/-- Byte pairs of one element. -/
def elemPairs (f : Int) (m e : Nat) : List (Int × Nat) :=
  (List.range e).map (fun k => (f + (k : Nat), m + k))

/-- Byte pairs of a search result, element after element. -/
def hitPairs (h : Hit) : List (Int × Nat) :=
  (boxIdx h.count).flatMap (fun x =>
    elemPairs (h.key + (h.d.esize * lin h.dsize (adds h.dstart x) : Nat))
      (h.xbuf + h.d.esize * lin h.msize (adds h.mstart x)) h.d.esize)

/-- Shapes as produced by the search. -/
structure HitShape (h : Hit) : Prop where
  nd : h.count.length = h.d.ndim
  ds : h.dstart.length = h.d.ndim
  ms : h.mstart.length = h.d.ndim
  dz : h.dsize.length = h.d.ndim
  mz : h.msize.length = h.d.ndim

theorem hitElems_pairs {h : Hit} {segs : List Seg} (hs : HitShape h) (he : hitElems h = .ok segs) :
    segs.flatMap Seg.pairs = hitPairs h := by
  unfold hitElems at he
  split at he
  · rename_i h0
    injection he with he
    subst he
    have hc : h.count = [] := List.length_eq_zero_iff.mp (by rw [hs.nd, h0])
    have hd : h.dsize = [] := List.length_eq_zero_iff.mp (by rw [hs.dz, h0])
    have hm : h.msize = [] := List.length_eq_zero_iff.mp (by rw [hs.mz, h0])
    simp [hitPairs, hc, hd, hm, boxIdx, lin, elemPairs, Seg.pairs]
  · split at he
    · injection he with he
      subst he
      rw [List.flatMap_map]
      rfl
    · simp at he

/-- The last coordinate counts elements. -/
theorem lin_last : ∀ {ns s x : List Nat} {j : Nat}, ns.length = x.length + 1 → s.length = x.length + 1 →
    lin ns (adds s (x ++ [j])) = lin ns (adds s (x ++ [0])) + j
  | [n], [s], [], j, _, _ => by simp [lin, adds]
  | n :: ns, s :: ss, x :: xs, j, h1, h2 => by
    simp only [List.length_cons, Nat.add_right_cancel_iff] at h1 h2
    have := lin_last (j := j) h1 h2
    simp only [adds, List.cons_append, List.zipWith_cons_cons, lin] at *
    omega
  | [], _, _, _, h, _ => by simp at h
  | _ :: _, [], _, _, _, h => by simp at h
  | _ :: _ :: _, _, [], _, h, _ => by simp at h
  | _ :: _, _ :: _ :: _, [], _, _, h => by simp at h

theorem boxIdx_append : ∀ (a b : List Nat), boxIdx (a ++ b) =
    (boxIdx a).flatMap (fun x => (boxIdx b).map (fun y => x ++ y))
  | [], b => by simp [boxIdx]
  | n :: a, b => by
    simp only [List.cons_append, boxIdx, boxIdx_append a b, List.flatMap_assoc, List.flatMap_map,
      List.map_flatMap, List.map_map]
    rfl

theorem boxIdx_one (n : Nat) : boxIdx [n] = (List.range n).map (fun j => [j]) := by
  simp only [boxIdx, List.map_cons, List.map_nil]
  rw [List.map_eq_flatMap]

theorem range_mul (n e : Nat) : List.range (n * e) =
    (List.range n).flatMap (fun j => (List.range e).map (fun k => e * j + k)) := by
  induction n with
  | zero => simp
  | succ n ih =>
    rw [Nat.succ_mul, List.range_add, ih, List.range_succ, List.flatMap_append]
    simp [Nat.mul_comm]

theorem row_pairs (f : Int) (m n e : Nat) :
    Seg.pairs { f := f, m := m, len := n * e } =
      (List.range n).flatMap (fun j => elemPairs (f + (e * j : Nat)) (m + e * j) e) := by
  unfold Seg.pairs elemPairs
  simp only [range_mul, List.map_flatMap, List.map_map]
  congr 1
  funext j
  apply List.map_congr_left
  intro k _
  simp only [Function.comp, Prod.mk.injEq]
  constructor <;> push_cast <;> omega

theorem hitRows_pairs {h : Hit} {segs : List Seg} (hs : HitShape h) (he : hitRows h = .ok segs) :
    segs.flatMap Seg.pairs = hitPairs h := by
  unfold hitRows at he
  cases hl : h.count.getLast? with
  | none => simp [hl] at he
  | some n =>
    simp only [hl] at he
    split at he
    · injection he with he
      subst he
      have hc : h.count = h.count.dropLast ++ [n] := by
        have := List.dropLast_append_getLast? n (by simp [hl] : n ∈ h.count.getLast?)
        exact this.symm
      rw [List.flatMap_map]
      unfold hitPairs
      have hlen : h.count.dropLast.length + 1 = h.count.length := by
        have := congrArg List.length hc
        simp at this ⊢
        omega
      conv => rhs; rw [hc, boxIdx_append, boxIdx_one]
      rw [List.flatMap_assoc]
      apply List.flatMap_congr
      intro x hx
      have hxl := boxIdx_length hx
      rw [row_pairs]
      simp only [List.map_map, List.flatMap_map]
      apply List.flatMap_congr
      intro j _
      simp only [Function.comp]
      rw [lin_last (j := j) (by rw [hs.dz, ← hs.nd]; omega) (by rw [hs.ds, ← hs.nd]; omega),
        lin_last (j := j) (by rw [hs.mz, ← hs.nd]; omega) (by rw [hs.ms, ← hs.nd]; omega)]
      congr 1
      · rw [Nat.mul_add]; push_cast; omega
      · rw [Nat.mul_add]; omega
    · simp at he

/-- Every piece ends before the next one begins. -/
def Apart (l : List Seg) : Prop := l.Pairwise (fun a b : Seg => a.f + (a.len : Int) ≤ b.f)

theorem mem_pairs {s : Seg} {i : Nat} (h : i < s.len) : (s.f + (i : Nat), s.m + i) ∈ s.pairs := by
  unfold Seg.pairs
  exact List.mem_map.mpr ⟨i, by simpa using h, rfl⟩

/-- Sorted pieces that share no file byte are apart. -/
theorem apart_of_nodup {l : List Seg} (hs : l.Pairwise (fun a b => a.f ≤ b.f))
    (hp : ∀ s ∈ l, 0 < s.len) (hn : ((l.flatMap Seg.pairs).map Prod.fst).Nodup) : Apart l := by
  induction l with
  | nil => exact List.Pairwise.nil
  | cons k ls ih =>
    rw [List.pairwise_cons] at hs
    simp only [List.flatMap_cons, List.map_append, List.nodup_append] at hn
    refine List.Pairwise.cons ?_ (ih hs.2 (fun s h => hp s (by simp [h])) hn.2.1)
    intro b hb
    by_contra hlt
    have h1 := hs.1 b hb
    have hbl := hp b (by simp [hb])
    have hkm : b.f ∈ k.pairs.map Prod.fst := by
      rw [List.mem_map]
      refine ⟨_, mem_pairs (s := k) (i := (b.f - k.f).toNat) (by omega), ?_⟩
      simp only
      omega
    have hbm : b.f ∈ (ls.flatMap Seg.pairs).map Prod.fst := by
      rw [List.mem_map]
      refine ⟨_, List.mem_flatMap.mpr ⟨b, hb, mem_pairs (s := b) (i := 0) hbl⟩, by simp⟩
    exact hn.2.2 _ hkm _ hbm rfl

theorem groupLoop_flatten : ∀ (hs cur : List Hit) (j : Hit), (groupLoop cur j hs).flatten = cur ++ hs
  | [], cur, j => by simp [groupLoop]
  | h :: hs, cur, j => by
    unfold groupLoop
    split
    · rw [groupLoop_flatten]; simp
    · rw [List.flatten_cons, groupLoop_flatten]; simp

theorem groups_flatten (hs : List Hit) : (groups hs).flatten = hs := by
  cases hs with
  | nil => rfl
  | cons h hs => simp [groups, groupLoop_flatten]

theorem groupLoop_same : ∀ (hs cur : List Hit) (j : Hit), j ∈ cur → (∀ a ∈ cur, a.foff = j.foff ∧ a.doff = j.doff) →
    ∀ g ∈ groupLoop cur j hs, ∀ a ∈ g, ∀ b ∈ g, a.foff = b.foff ∧ a.doff = b.doff
  | [], cur, j, _, hc, g, hg, a, ha, b, hb => by
    simp only [groupLoop, List.mem_singleton] at hg
    subst hg
    have h1 := hc a ha
    have h2 := hc b hb
    exact ⟨h1.1.trans h2.1.symm, h1.2.trans h2.2.symm⟩
  | h :: hs, cur, j, hj, hc, g, hg, a, ha, b, hb => by
    unfold groupLoop at hg
    split at hg
    · rename_i hcond
      simp only [Bool.and_eq_true, decide_eq_true_eq] at hcond
      refine groupLoop_same hs (cur ++ [h]) _ ?_ ?_ g hg a ha b hb
      · split <;> simp [hj]
      · intro x hx
        have hx' : x.foff = j.foff ∧ x.doff = j.doff := by
          rw [List.mem_append, List.mem_singleton] at hx
          rcases hx with hx | rfl
          · exact hc x hx
          · exact ⟨hcond.1.1.symm, hcond.1.2.symm⟩
        split
        · exact ⟨hx'.1.trans hcond.1.1, hx'.2.trans hcond.1.2⟩
        · exact hx'
    · rcases List.mem_cons.mp hg with rfl | hg
      · have h1 := hc a ha
        have h2 := hc b hb
        exact ⟨h1.1.trans h2.1.symm, h1.2.trans h2.2.symm⟩
      · exact groupLoop_same hs [h] h (by simp) (by simp) g hg a ha b hb

theorem groups_same {hs : List Hit} : ∀ g ∈ groups hs, ∀ a ∈ g, ∀ b ∈ g,
    a.foff = b.foff ∧ a.doff = b.doff := by
  cases hs with
  | nil => simp [groups]
  | cons h hs => exact groupLoop_same hs [h] h (by simp) (by simp)

theorem flatMapRes_pairs {f : Hit → Res (List Seg)} {g : List Hit}
    (hf : ∀ h ∈ g, ∀ s, f h = .ok s → s.flatMap Seg.pairs = hitPairs h ∧ ∀ x ∈ s, 0 < x.len)
    {s : List Seg} (hs : flatMapRes f g = .ok s) :
    s.flatMap Seg.pairs = g.flatMap hitPairs ∧ ∀ x ∈ s, 0 < x.len := by
  induction g generalizing s with
  | nil =>
    simp only [flatMapRes] at hs
    injection hs with hs
    subst hs
    simp
  | cons h g ih =>
    simp only [flatMapRes] at hs
    obtain ⟨a, ha, hs⟩ := Res.bind_ok hs
    obtain ⟨b, hb, hs⟩ := Res.bind_ok hs
    have hs := Res.pure_ok hs
    subst hs
    obtain ⟨i1, i2⟩ := ih (fun x hx => hf x (by simp [hx])) hb
    obtain ⟨j1, j2⟩ := hf h (by simp) a ha
    refine ⟨by simp [i1, j1], ?_⟩
    intro x hx
    rcases List.mem_append.mp hx with hx | hx
    · exact j2 x hx
    · exact i2 x hx

/-- Search results have elements. -/
structure HitPos (h : Hit) : Prop where
  es : 0 < h.d.esize
  ct : ∀ n ∈ h.count, 0 < n

theorem hitRows_pos {h : Hit} (hp : HitPos h) {s : List Seg} (hs : hitRows h = .ok s) :
    ∀ x ∈ s, 0 < x.len := by
  unfold hitRows at hs
  cases hl : h.count.getLast? with
  | none => simp [hl] at hs
  | some n =>
    simp only [hl] at hs
    split at hs
    · injection hs with hs
      subst hs
      intro x hx
      obtain ⟨y, _, rfl⟩ := List.mem_map.mp hx
      exact Nat.mul_pos (hp.ct n (List.mem_of_getLast? hl)) hp.es
    · simp at hs

/-- Pairs that write the given address. -/
def atAddr (a : Nat) (ps : List (Int × Nat)) : List (Int × Nat) := ps.filter (fun p => decide (p.2 = a))

theorem perm_short {α : Type} {l l' : List α} (h : l.Perm l') (hl : l'.length ≤ 1) : l = l' := by
  match l', hl with
  | [], _ => exact h.eq_nil
  | [x], _ => exact List.perm_singleton.mp h

theorem atAddr_append (a : Nat) (x y : List (Int × Nat)) : atAddr a (x ++ y) = atAddr a x ++ atAddr a y := by
  simp [atAddr]

theorem applyPairs_eq (disk : Mem) (a : Nat) : ∀ (ps : List (Int × Nat)) (mem : Mem),
    applyPairs disk ps mem a = ((atAddr a ps).getLast?.map (fun p => disk p.1.toNat)).getD (mem a)
  | [], mem => by simp [applyPairs, atAddr]
  | p :: ps, mem => by
    rw [applyPairs, applyPairs_eq disk a ps]
    unfold atAddr
    by_cases h : p.2 = a
    · rw [List.filter_cons_of_pos (by simpa using h)]
      cases hf : ps.filter (fun p => decide (p.2 = a)) with
      | nil => simp [upd, h]
      | cons x xs =>
        rw [List.getLast?_cons_cons, List.getLast?_eq_some_getLast (by simp : x :: xs ≠ [])]
        rfl
    · rw [List.filter_cons_of_neg (by simpa using h)]
      simp [upd, Ne.symm h]

end Verif
