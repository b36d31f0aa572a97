import Verif.Lemmas.Serves

namespace Verif

/-- Last position of a block. -/
def lastPos : List Nat → List Nat → List Nat := List.zipWith (fun s c => s + c - 1)

/-- The position lies inside an array of the given shape. -/
def InShape : List Nat → List Nat → Prop
  | [], [] => True
  | n :: ns, x :: xs => x < n ∧ InShape ns xs
  | _, _ => False

theorem lin_lt_prod : ∀ {ns x : List Nat}, InShape ns x → lin ns x < prod ns
  | [], [], _ => by simp [lin]
  | n :: ns, x :: xs, h => by
    have ih := lin_lt_prod h.2
    simp only [lin, prod_cons]
    calc x * prod ns + lin ns xs < x * prod ns + prod ns := by omega
      _ = (x + 1) * prod ns := by rw [Nat.add_mul]; omega
      _ ≤ n * prod ns := Nat.mul_le_mul_right _ h.1
  | [], _ :: _, h => by simp [InShape] at h
  | _ :: _, [], h => by simp [InShape] at h

theorem lin_step {m x y a b : Nat} (h : x < y) (ha : a < m) : x * m + a < y * m + b := by
  calc x * m + a < x * m + m := by omega
    _ = (x + 1) * m := by rw [Nat.add_mul]; omega
    _ ≤ y * m := Nat.mul_le_mul_right _ h
    _ ≤ y * m + b := by omega

theorem lin_lex : ∀ {ns x y : List Nat}, InShape ns x → InShape ns y → lexLt x y = true →
    lin ns x < lin ns y
  | n :: ns, x :: xs, y :: ys, h, h', hl => by
    simp only [lexLt] at hl
    simp only [lin]
    split at hl
    · rename_i h1
      exact lin_step h1 (lin_lt_prod h.2)
    · split at hl
      · simp at hl
      · have : x = y := by omega
        subst this
        have := lin_lex h.2 h'.2 hl
        omega
  | [], [], [], _, _, h => by simp [lexLt] at h
  | [], _ :: _, _, h, _, _ => by simp [InShape] at h
  | [], [], _ :: _, _, h, _ => by simp [InShape] at h
  | _ :: _, [], _, h, _, _ => by simp [InShape] at h
  | _ :: _, _ :: _, [], _, h, _ => by simp [InShape] at h

theorem lexLt_total : ∀ {x y : List Nat}, x.length = y.length → lexLt x y = true ∨ lexLt y x = true ∨ x = y
  | [], [], _ => by simp
  | x :: xs, y :: ys, h => by
    simp only [List.length_cons, Nat.add_right_cancel_iff] at h
    simp only [lexLt]
    rcases Nat.lt_trichotomy x y with h1 | h1 | h1
    · simp [h1]
    · subst h1
      rcases lexLt_total h with h2 | h2 | h2
      · simp [h2]
      · simp [h2]
      · simp [h2]
    · right; left; simp [h1]
  | [], _ :: _, h => by simp at h
  | _ :: _, [], h => by simp at h

theorem inShape_length : ∀ {ns x : List Nat}, InShape ns x → x.length = ns.length
  | [], [], _ => rfl
  | _ :: _, _ :: _, h => by simp [inShape_length h.2]
  | [], _ :: _, h => by simp [InShape] at h
  | _ :: _, [], h => by simp [InShape] at h

theorem lin_not_lex {ns x y : List Nat} (hx : InShape ns x) (hy : InShape ns y)
    (h : lexLt y x = false) : lin ns x ≤ lin ns y := by
  rcases lexLt_total (x := x) (y := y) (by rw [inShape_length hx, inShape_length hy]) with h1 | h1 | h1
  · exact Nat.le_of_lt (lin_lex hx hy h1)
  · rw [h] at h1; simp at h1
  · rw [h1]; exact Nat.le_refl _

/-- A block inside an array: shapes agree, no empty dimension. -/
structure SubOK (n c s : List Nat) : Prop where
  lc : c.length = n.length
  ls : s.length = n.length
  ok : subarrayOK n c s = true

theorem SubOK.tail {n c s : Nat} {ns cs ss : List Nat} (h : SubOK (n :: ns) (c :: cs) (s :: ss)) :
    1 ≤ c ∧ s + c ≤ n ∧ SubOK ns cs ss := by
  have h1 := h.lc
  have h2 := h.ls
  have h3 := h.ok
  simp only [List.length_cons, Nat.add_right_cancel_iff, subarrayOK, Bool.and_eq_true,
    decide_eq_true_eq] at h1 h2 h3
  exact ⟨h3.1.1, h3.1.2, h1, h2, h3.2⟩

theorem SubOK.first : ∀ {n c s : List Nat}, SubOK n c s → InShape n s
  | [], [], [], _ => trivial
  | n :: ns, c :: cs, s :: ss, h => by
    obtain ⟨h1, h2, h3⟩ := h.tail
    exact ⟨by omega, h3.first⟩
  | [], _ :: _, _, h => by have := h.lc; simp at this
  | [], [], _ :: _, h => by have := h.ls; simp at this
  | _ :: _, [], _, h => by have := h.lc; simp at this
  | _ :: _, _ :: _, [], h => by have := h.ls; simp at this

theorem SubOK.last : ∀ {n c s : List Nat}, SubOK n c s → InShape n (lastPos s c)
  | [], [], [], _ => trivial
  | n :: ns, c :: cs, s :: ss, h => by
    obtain ⟨h1, h2, h3⟩ := h.tail
    have := h3.last
    simp only [lastPos, List.zipWith_cons_cons, InShape] at *
    exact ⟨by omega, this⟩
  | [], _ :: _, _, h => by have := h.lc; simp at this
  | [], [], _ :: _, h => by have := h.ls; simp at this
  | _ :: _, [], _, h => by have := h.lc; simp at this
  | _ :: _, _ :: _, [], h => by have := h.ls; simp at this

/-- Positions of a block lie between its first and its last position. -/
theorem lin_between : ∀ {n c s x : List Nat}, SubOK n c s → x ∈ boxIdx c →
    lin n s ≤ lin n (adds s x) ∧ lin n (adds s x) ≤ lin n (lastPos s c)
  | [], [], [], x, _, hx => by simp [lin]
  | n :: ns, c :: cs, s :: ss, x, h, hx => by
    obtain ⟨h1, h2, h3⟩ := h.tail
    simp only [boxIdx, List.mem_flatMap, List.mem_range, List.mem_map] at hx
    obtain ⟨a, ha, xs, hxs, rfl⟩ := hx
    obtain ⟨i1, i2⟩ := lin_between h3 hxs
    simp only [adds, lastPos, List.zipWith_cons_cons, lin] at *
    have j1 : s * prod ns ≤ (s + a) * prod ns := Nat.mul_le_mul_right _ (by omega)
    have j2 : (s + a) * prod ns ≤ (s + c - 1) * prod ns := Nat.mul_le_mul_right _ (by omega)
    omega
  | [], _ :: _, _, _, h, _ => by have := h.lc; simp at this
  | [], [], _ :: _, _, h, _ => by have := h.ls; simp at this
  | _ :: _, [], _, _, h, _ => by have := h.lc; simp at this
  | _ :: _, _ :: _, [], _, h, _ => by have := h.ls; simp at this

/-- Positions of a block are visited in increasing order. -/
theorem boxIdx_sorted : ∀ {n c s : List Nat}, SubOK n c s →
    (boxIdx c).Pairwise (fun x y => lin n (adds s x) < lin n (adds s y))
  | [], [], [], _ => by simp [boxIdx]
  | n :: ns, c :: cs, s :: ss, h => by
    obtain ⟨h1, h2, h3⟩ := h.tail
    have ih := boxIdx_sorted h3
    unfold boxIdx
    rw [List.pairwise_flatMap]
    constructor
    · intro a _
      rw [List.pairwise_map]
      refine ih.imp ?_
      intro x y hxy
      simp only [adds, List.zipWith_cons_cons, lin] at *
      omega
    · refine (List.Pairwise.and_mem.mp (List.pairwise_lt_range (n := c))).imp ?_
      rintro a b ⟨ha, hb, hab⟩ x hx y hy
      obtain ⟨x', hx', rfl⟩ := List.mem_map.mp hx
      obtain ⟨y', hy', rfl⟩ := List.mem_map.mp hy
      have l1 := lin_between h3 hx'
      have l2 := lin_lt_prod h3.last
      simp only [adds, List.zipWith_cons_cons, lin] at *
      exact lin_step (by omega) (by omega)
  | [], _ :: _, _, h => by have := h.lc; simp at this
  | [], [], _ :: _, h => by have := h.ls; simp at this
  | _ :: _, [], _, h => by have := h.lc; simp at this
  | _ :: _, _ :: _, [], h => by have := h.ls; simp at this

/-- `interleve` says whether the first block ends before the second one starts. -/
theorem interleve_false : ∀ {n sa ca sb : List Nat}, SubOK n ca sa → InShape n sb →
    interleve sa ca sb = false → lexLt (lastPos sa ca) sb = true
  | [], [], [], [], _, _, h => by simp [interleve] at h
  | n :: ns, sa :: sas, ca :: cas, sb :: sbs, h1, h2, h => by
    obtain ⟨k1, k2, k3⟩ := h1.tail
    simp only [interleve] at h
    simp only [lastPos, List.zipWith_cons_cons, lexLt]
    by_cases c1 : sa + ca < sb + 1
    · rw [if_pos (by omega)]
    · rw [if_neg c1] at h
      by_cases c2 : sb + 1 < sa + ca
      · rw [if_pos c2] at h; simp at h
      · rw [if_neg c2] at h
        rw [if_neg (by omega), if_neg (by omega)]
        exact interleve_false k3 h2.2 h
  | [], _ :: _, _, _, h, _, _ => by have := h.ls; simp at this
  | [], [], _ :: _, _, h, _, _ => by have := h.lc; simp at this
  | [], [], [], _ :: _, _, h, _ => by simp [InShape] at h
  | _ :: _, [], _, _, h, _, _ => by have := h.ls; simp at this
  | _ :: _, _ :: _, [], _, h, _, _ => by have := h.lc; simp at this
  | _ :: _, _ :: _, _ :: _, [], _, h, _ => by simp [InShape] at h

/-- If no dimension of the first block ends later, neither does the block. -/
theorem endGt_false : ∀ {n s c s' c' : List Nat}, SubOK n c s → SubOK n c' s' →
    endGt s c s' c' = false → lin n (lastPos s c) ≤ lin n (lastPos s' c')
  | [], [], [], [], [], _, _, _ => by simp [lin]
  | n :: ns, s :: ss, c :: cs, s' :: ss', c' :: cs', h, h', hf => by
    obtain ⟨k1, k2, k3⟩ := h.tail
    obtain ⟨k1', k2', k3'⟩ := h'.tail
    simp only [endGt] at hf
    split at hf
    · simp at hf
    · rename_i hc
      have := endGt_false k3 k3' hf
      simp only [lastPos, List.zipWith_cons_cons, lin] at *
      have : (s + c - 1) * prod ns ≤ (s' + c' - 1) * prod ns := Nat.mul_le_mul_right _ (by omega)
      omega
  | [], _ :: _, _, _, _, h, _, _ => by have := h.ls; simp at this
  | [], [], _ :: _, _, _, h, _, _ => by have := h.lc; simp at this
  | [], [], [], _ :: _, _, _, h, _ => by have := h.ls; simp at this
  | [], [], [], [], _ :: _, _, h, _ => by have := h.lc; simp at this
  | _ :: _, [], _, _, _, h, _, _ => by have := h.ls; simp at this
  | _ :: _, _ :: _, [], _, _, h, _, _ => by have := h.lc; simp at this
  | _ :: _, _ :: _, _ :: _, [], _, _, h, _ => by have := h.ls; simp at this
  | _ :: _, _ :: _, _ :: _, _ :: _, [], _, h, _ => by have := h.lc; simp at this

/-- File part of a search result. -/
structure HitFile (h : Hit) : Prop where
  sub : SubOK h.dsize h.count h.dstart
  es : 0 < h.d.esize
  lo : 0 ≤ h.key

/-- First and last element of a search result. -/
def Hit.fst (h : Hit) : Nat := lin h.dsize h.dstart
def Hit.lst (h : Hit) : Nat := lin h.dsize (lastPos h.dstart h.count)

theorem hitPairs_range {h : Hit} (hf : HitFile h) {p : Int × Nat} (hp : p ∈ hitPairs h) :
    h.key + (h.d.esize * h.fst : Nat) ≤ p.1 ∧ p.1 < h.key + (h.d.esize * (h.lst + 1) : Nat) := by
  unfold hitPairs at hp
  obtain ⟨x, hx, hp⟩ := List.mem_flatMap.mp hp
  unfold elemPairs at hp
  obtain ⟨k, hk, rfl⟩ := List.mem_map.mp hp
  have hk : k < h.d.esize := by simpa using hk
  obtain ⟨l1, l2⟩ := lin_between hf.sub hx
  have m1 := Nat.mul_le_mul_left h.d.esize l1
  have m2 := Nat.mul_le_mul_left h.d.esize l2
  unfold Hit.fst Hit.lst
  rw [Nat.mul_add, Nat.mul_one]
  simp only
  omega

/-- Two search results in sorted order: different data blocks in file order, or the same data block
with first elements in order, and last elements in order if the code takes the second one to end later. -/
def InOrder (a b : Hit) : Prop :=
  (a.key + (a.d.esize * prod a.dsize : Nat) ≤ b.key) ∨
  (a.foff = b.foff ∧ a.doff = b.doff ∧ a.dsize = b.dsize ∧ a.d.esize = b.d.esize ∧
    a.fst ≤ b.fst ∧ (hitGt b a = true → a.lst ≤ b.lst))

/-- All file bytes of the first precede those of the second. -/
def Before (a b : Hit) : Prop := ∀ u ∈ hitPairs a, ∀ v ∈ hitPairs b, u.1 ≤ v.1

theorem Hit.lst_lt {h : Hit} (hf : HitFile h) : h.lst < prod h.dsize := lin_lt_prod hf.sub.last

theorem before_of_key {a b : Hit} (ha : HitFile a) (hb : HitFile b)
    (h : a.key + (a.d.esize * prod a.dsize : Nat) ≤ b.key) : Before a b := by
  intro u hu v hv
  have r1 := hitPairs_range ha hu
  have r2 := hitPairs_range hb hv
  have := Nat.mul_le_mul_left a.d.esize (Hit.lst_lt ha)
  simp only [Nat.succ_eq_add_one] at this
  omega

theorem before_of_pos {a b : Hit} (ha : HitFile a) (hb : HitFile b) (hk : a.key = b.key)
    (he : a.d.esize = b.d.esize) (h : a.lst < b.fst) : Before a b := by
  intro u hu v hv
  have r1 := hitPairs_range ha hu
  have r2 := hitPairs_range hb hv
  rw [he] at r1
  have := Nat.mul_le_mul_left b.d.esize h
  simp only [Nat.succ_eq_add_one] at this
  omega

theorem key_le_of_inOrder {a b : Hit} (h : InOrder a b) : a.key ≤ b.key := by
  rcases h with h | ⟨h1, h2, _⟩
  · omega
  · unfold Hit.key; rw [h1, h2]; exact Int.le_refl _

theorem groupLoop_before : ∀ (hs cur : List Hit) (j : Hit), j ∈ cur →
    (∀ a ∈ cur, a.foff = j.foff ∧ a.doff = j.doff ∧ a.dsize = j.dsize ∧ a.d.esize = j.d.esize ∧ a.lst ≤ j.lst) →
    (∀ a ∈ cur ++ hs, HitFile a) → (cur ++ hs).Pairwise InOrder →
    (groupLoop cur j hs).Pairwise (fun g g' => ∀ a ∈ g, ∀ b ∈ g', Before a b)
  | [], cur, j, _, _, _, _ => by simp [groupLoop]
  | h :: hs, cur, j, hj, hc, hf, hp => by
    have hfj := hf j (by simp [hj])
    have hfh := hf h (by simp)
    rw [List.pairwise_append] at hp
    have hjh : InOrder j h := hp.2.2 j hj h (by simp)
    unfold groupLoop
    split
    · rename_i hcond
      simp only [Bool.and_eq_true, decide_eq_true_eq] at hcond
      -- the same data block
      have same : j.dsize = h.dsize ∧ j.d.esize = h.d.esize ∧ (hitGt h j = true → j.lst ≤ h.lst) := by
        rcases hjh with h1 | ⟨_, _, h3, h4, _, h6⟩
        · exfalso
          have hk : j.key = h.key := by unfold Hit.key; rw [hcond.1.1, hcond.1.2]
          have := Hit.lst_lt hfj
          have := Nat.mul_pos hfj.es (by omega : 0 < prod j.dsize)
          omega
        · exact ⟨h3, h4, h6⟩
      refine groupLoop_before hs (cur ++ [h]) _ ?_ ?_ ?_ ?_
      · split <;> simp [hj]
      · intro a ha
        have ha' : a.foff = j.foff ∧ a.doff = j.doff ∧ a.dsize = j.dsize ∧ a.d.esize = j.d.esize ∧
            a.lst ≤ max j.lst h.lst := by
          rw [List.mem_append, List.mem_singleton] at ha
          rcases ha with ha | rfl
          · obtain ⟨c1, c2, c3, c4, c5⟩ := hc a ha
            exact ⟨c1, c2, c3, c4, by omega⟩
          · exact ⟨hcond.1.1.symm, hcond.1.2.symm, same.1.symm, same.2.1.symm, by omega⟩
        by_cases hg : hitGt h j = true
        · rw [if_pos hg]
          refine ⟨ha'.1.trans hcond.1.1, ha'.2.1.trans hcond.1.2, ha'.2.2.1.trans same.1,
            ha'.2.2.2.1.trans same.2.1, ?_⟩
          have := ha'.2.2.2.2
          have := same.2.2 hg
          omega
        · rw [if_neg hg]
          refine ⟨ha'.1, ha'.2.1, ha'.2.2.1, ha'.2.2.2.1, ?_⟩
          have hle : h.lst ≤ j.lst := by
            have hs' : SubOK j.dsize h.count h.dstart := by rw [same.1]; exact hfh.sub
            have := endGt_false hs' hfj.sub (by unfold hitGt at hg; simpa using hg)
            unfold Hit.lst
            rw [← same.1]
            exact this
          have := ha'.2.2.2.2
          omega
      · simpa using hf
      · rw [List.append_assoc, List.singleton_append, List.pairwise_append]
        exact hp
    · rename_i hcond
      refine List.Pairwise.cons ?_ (groupLoop_before hs [h] h (by simp) (by simp)
        (fun a ha => hf a (by simp only [List.singleton_append] at ha; simp at ha ⊢; tauto)) (by simpa using hp.2.1))
      intro g hg a ha b hb
      have hbm : b ∈ h :: hs := by
        have := List.mem_flatten.mpr ⟨g, hg, hb⟩
        rw [groupLoop_flatten] at this
        simpa using this
      have hfa := hf a (by simp [ha])
      have hfb := hf b (List.mem_append_right _ hbm)
      have hca := hc a ha
      have hka : a.key = j.key := by unfold Hit.key; rw [hca.1, hca.2.1]
      have hhb : h = b ∨ InOrder h b := by
        rcases List.mem_cons.mp hbm with rfl | hb'
        · exact Or.inl rfl
        · exact Or.inr ((List.pairwise_cons.mp hp.2.1).1 b hb')
      have hkhb : h.key ≤ b.key := by
        rcases hhb with rfl | h
        · exact Int.le_refl _
        · exact key_le_of_inOrder h
      rcases hjh with h1 | ⟨h1, h2, h3, h4, h5, h6⟩
      · apply before_of_key hfa hfb
        rw [hka, hca.2.2.1, hca.2.2.2.1]
        omega
      · have hkjh : j.key = h.key := by unfold Hit.key; rw [h1, h2]
        have hint : interleve j.dstart j.count h.dstart = false := by
          simp only [Bool.and_eq_true, decide_eq_true_eq, not_and, Bool.not_eq_true] at hcond
          exact hcond ⟨h1, h2⟩
        have hlt : j.lst < h.fst := by
          have hs1 : InShape j.dsize h.dstart := by rw [h3]; exact hfh.sub.first
          have := lin_lex hfj.sub.last hs1 (interleve_false hfj.sub hs1 hint)
          unfold Hit.lst Hit.fst
          rw [h3] at this ⊢
          exact this
        rcases hhb with rfl | hhb
        · exact before_of_pos hfa hfb (hka.trans hkjh) (hca.2.2.2.1.trans h4) (by have := hca.2.2.2.2; omega)
        · rcases hhb with k1 | ⟨k1, k2, k3, k4, k5, k6⟩
          · apply before_of_key hfa hfb
            rw [hka, hkjh, hca.2.2.1, hca.2.2.2.1, h3, h4]
            exact k1
          · have hkb : h.key = b.key := by unfold Hit.key; rw [k1, k2]
            exact before_of_pos hfa hfb (by rw [hka, hkjh, hkb]) (by rw [hca.2.2.2.1, h4, k4])
              (by have := hca.2.2.2.2; omega)

theorem groups_before {hs : List Hit} (hf : ∀ a ∈ hs, HitFile a) (hp : hs.Pairwise InOrder) :
    (groups hs).Pairwise (fun g g' => ∀ a ∈ g, ∀ b ∈ g', Before a b) := by
  cases hs with
  | nil => simp [groups]
  | cons h hs => exact groupLoop_before hs [h] h (by simp) (by simp) (by simpa using hf) (by simpa using hp)

/-- Results that do not interleave form groups of their own. -/
theorem groupLoop_single : ∀ (hs : List Hit) (h : Hit), (h :: hs).Pairwise (fun a b =>
    (decide (a.foff = b.foff) && decide (a.doff = b.doff) && interleve a.dstart a.count b.dstart) = false) →
    ∀ g ∈ groupLoop [h] h hs, g.length = 1
  | [], h, _, g, hg => by
    simp only [groupLoop, List.mem_singleton] at hg
    rw [hg]; rfl
  | h' :: hs, h, hp, g, hg => by
    rw [List.pairwise_cons] at hp
    unfold groupLoop at hg
    rw [hp.1 h' (by simp)] at hg
    simp only [Bool.false_eq_true, if_false, List.mem_cons] at hg
    rcases hg with rfl | hg
    · rfl
    · exact groupLoop_single hs h' hp.2 g hg

theorem groups_single {hs : List Hit} (hp : hs.Pairwise (fun a b =>
    (decide (a.foff = b.foff) && decide (a.doff = b.doff) && interleve a.dstart a.count b.dstart) = false)) :
    ∀ g ∈ groups hs, g.length = 1 := by
  cases hs with
  | nil => simp [groups]
  | cons h hs => exact groupLoop_single hs h hp

/-- Blocks in row-major order do not interleave. -/
theorem interleve_of_lex : ∀ {sa ca sb : List Nat}, (∀ n ∈ ca, 0 < n) →
    lexLt (lastPos sa ca) sb = true → interleve sa ca sb = false
  | sa :: sas, ca :: cas, sb :: sbs, hc, h => by
    simp only [lastPos, List.zipWith_cons_cons, lexLt] at h
    have h0 := hc ca (by simp)
    simp only [interleve]
    split at h
    · rw [if_pos (by omega)]
    · split at h
      · simp at h
      · rw [if_neg (by omega), if_neg (by omega)]
        exact interleve_of_lex (fun n hn => hc n (by simp [hn])) h
  | [], _, _, _, h => by simp [lastPos, lexLt] at h
  | _ :: _, [], _, _, h => by simp [lastPos, lexLt] at h
  | _ :: _, _ :: _, [], _, h => by simp [lastPos, lexLt] at h

/-- Pieces that are apart give increasing displacements. -/
theorem apart_sorted {l : List Seg} (h : l.Pairwise (fun a b : Seg => 0 < b.len → a.f + (a.len : Int) ≤ b.f)) :
    ((l.flatMap Seg.pairs).map Prod.fst).Pairwise (· ≤ ·) := by
  rw [List.pairwise_map, List.pairwise_flatMap]
  constructor
  · intro s _
    unfold Seg.pairs
    rw [List.pairwise_map]
    refine (List.pairwise_lt_range (n := s.len)).imp ?_
    intro a b hab
    simp only
    omega
  · refine List.Pairwise.imp ?_ h
    intro a b hab u hu v hv
    unfold Seg.pairs at hu hv
    obtain ⟨i, hi, rfl⟩ := List.mem_map.mp hu
    obtain ⟨j, hj, rfl⟩ := List.mem_map.mp hv
    simp only [List.mem_range] at hi hj ⊢
    have := hab (by omega)
    omega

theorem hitPairs_sorted {h : Hit} (hf : HitFile h) :
    ((hitPairs h).map Prod.fst).Pairwise (· ≤ ·) := by
  unfold hitPairs
  rw [List.pairwise_map, List.pairwise_flatMap]
  constructor
  · intro x _
    unfold elemPairs
    rw [List.pairwise_map]
    refine (List.pairwise_lt_range (n := h.d.esize)).imp ?_
    intro a b hab
    simp only
    omega
  · refine (boxIdx_sorted hf.sub).imp ?_
    intro x y hxy u hu v hv
    unfold elemPairs at hu hv
    obtain ⟨i, hi, rfl⟩ := List.mem_map.mp hu
    obtain ⟨j, hj, rfl⟩ := List.mem_map.mp hv
    simp only [List.mem_range] at hi hj ⊢
    have := Nat.mul_le_mul_left h.d.esize hxy
    simp only [Nat.succ_eq_add_one, Nat.mul_add, Nat.mul_one] at this
    omega

/-- Rows of a search result can be described. -/
def RowOK (h : Hit) : Prop := ∃ n, h.count.getLast? = some n ∧ n * h.d.esize < 2 ^ 31

theorem flatMapRes_rows {g : List Hit} (hr : ∀ h ∈ g, RowOK h) : ∃ s, flatMapRes hitRows g = .ok s := by
  induction g with
  | nil => exact ⟨[], rfl⟩
  | cons h g ih =>
    obtain ⟨s, hs⟩ := ih (fun x hx => hr x (by simp [hx]))
    obtain ⟨n, hn, hlt⟩ := hr h (by simp)
    obtain ⟨r, hr'⟩ : ∃ r, hitRows h = .ok r := by
      unfold hitRows
      simp only [hn, if_pos hlt]
      exact ⟨_, rfl⟩
    refine ⟨r ++ s, ?_⟩
    simp only [flatMapRes, hr', hs, Res.ok_bind]
    rfl

/-- One group: succeeds with increasing displacements. -/
theorem groupSegs_ok {g : List Hit} (hsh : ∀ h ∈ g, HitShape h) (hps : ∀ h ∈ g, HitPos h)
    (hf : ∀ h ∈ g, HitFile h) (hm : ∀ h ∈ g, subarrayOK h.msize h.count h.mstart = true)
    (hr : 1 < g.length → ∀ h ∈ g, RowOK h) :
    ∃ r, groupSegs g = .ok r ∧ ((r.1.flatMap Seg.pairs).map Prod.fst).Pairwise (· ≤ ·) ∧
      ∀ u ∈ r.1.flatMap Seg.pairs, u ∈ g.flatMap hitPairs := by
  have rows : (∀ h ∈ g, RowOK h) → ∃ r, (do let s ← flatMapRes hitRows g; return trim (sortoffsets s) : Res _) = .ok r ∧
      ((r.1.flatMap Seg.pairs).map Prod.fst).Pairwise (· ≤ ·) ∧
      ∀ u ∈ r.1.flatMap Seg.pairs, u ∈ g.flatMap hitPairs := by
    intro hr
    obtain ⟨s, hs⟩ := flatMapRes_rows hr
    refine ⟨trim (sortoffsets s), by rw [hs]; rfl, ?_⟩
    have h1 := (flatMapRes_pairs (fun x hx s hs => ⟨hitRows_pairs (hsh x hx) hs, hitRows_pos (hps x hx) hs⟩) hs).1
    have hb : Begins (sortoffsets s) := by
      unfold Begins
      refine (sortoffsets_sorted s).imp ?_
      intro a b h _
      exact h
    obtain ⟨t1, _, t4⟩ := trim_view hb
    refine ⟨apart_sorted t1, fun u hu => ?_⟩
    rw [← h1]
    exact ((sortoffsets_perm s).flatMap_right Seg.pairs).mem_iff.mp (t4 u hu)
  unfold groupSegs
  split
  · rename_i x
    have hx : x ∈ [x] := by simp
    obtain ⟨s, hs⟩ : ∃ s, hitElems x = .ok s := by
      unfold hitElems
      split
      · exact ⟨_, rfl⟩
      · rw [(hf x hx).sub.ok, hm x hx]
        exact ⟨_, rfl⟩
    refine ⟨(s, []), by rw [hs]; rfl, ?_⟩
    simp only
    rw [hitElems_pairs (hsh x hx) hs]
    exact ⟨hitPairs_sorted (hf x hx), by simp⟩
  · rename_i hne
    apply rows
    intro h hh
    refine hr ?_ h hh
    match g, hne, hh with
    | [x], hne, _ => exact absurd rfl (hne x)
    | _ :: _ :: _, _, _ => simp

/-- All groups: the file view is valid. -/
theorem genSegs_ok {gs : List (List Hit)} (hsh : ∀ h ∈ gs.flatten, HitShape h)
    (hps : ∀ h ∈ gs.flatten, HitPos h) (hf : ∀ h ∈ gs.flatten, HitFile h)
    (hm : ∀ h ∈ gs.flatten, subarrayOK h.msize h.count h.mstart = true)
    (hr : ∀ g ∈ gs, 1 < g.length → ∀ h ∈ g, RowOK h)
    (hb : gs.Pairwise (fun g g' => ∀ a ∈ g, ∀ b ∈ g', Before a b)) :
    ∃ r, genSegs gs = .ok r ∧ ((r.1.flatMap Seg.pairs).map Prod.fst).Pairwise (· ≤ ·) ∧
      (∀ u ∈ r.1.flatMap Seg.pairs, ∃ h ∈ gs.flatten, u ∈ hitPairs h) := by
  induction gs with
  | nil => exact ⟨([], []), rfl, by simp, by simp⟩
  | cons g gs ih =>
    simp only [List.flatten_cons, List.mem_append] at hsh hps hf hm ⊢
    rw [List.pairwise_cons] at hb
    obtain ⟨r, r1, r2, r3⟩ := ih (fun z hz => hsh z (Or.inr hz)) (fun z hz => hps z (Or.inr hz))
      (fun z hz => hf z (Or.inr hz)) (fun z hz => hm z (Or.inr hz)) (fun z hz => hr z (by simp [hz])) hb.2
    obtain ⟨s, s1, s2, t2⟩ := groupSegs_ok (fun z hz => hsh z (Or.inl hz)) (fun z hz => hps z (Or.inl hz))
      (fun z hz => hf z (Or.inl hz)) (fun z hz => hm z (Or.inl hz)) (hr g (by simp))
    refine ⟨(s.1 ++ r.1, s.2 ++ r.2), ?_, ?_, ?_⟩
    · simp only [genSegs, s1, r1, Res.ok_bind]
      rfl
    · simp only [List.flatMap_append, List.map_append]
      rw [List.pairwise_append]
      refine ⟨s2, r2, ?_⟩
      intro x hx y hy
      obtain ⟨u, hu, rfl⟩ := List.mem_map.mp hx
      obtain ⟨v, hv, rfl⟩ := List.mem_map.mp hy
      obtain ⟨b, hbm, hv'⟩ := r3 v hv
      obtain ⟨g', hg', hb'⟩ := List.mem_flatten.mp hbm
      obtain ⟨a, ha, hu'⟩ := List.mem_flatMap.mp (t2 u hu)
      exact hb.1 g' hg' a ha b hb' u hu' v hv'
    · intro u hu
      simp only [List.flatMap_append, List.mem_append] at hu
      rcases hu with hu | hu
      · obtain ⟨a, ha, hu'⟩ := List.mem_flatMap.mp (t2 u hu)
        exact ⟨a, Or.inl ha, hu'⟩
      · obtain ⟨b, hb, hu'⟩ := r3 u hu
        exact ⟨b, Or.inr hb, hu'⟩

/-- Reading succeeds when the sorted results are in order. -/
theorem readHits_ok (disk mem : Mem) {hs : List Hit} (hsh : ∀ h ∈ hs, HitShape h)
    (hps : ∀ h ∈ hs, HitPos h) (hf : ∀ h ∈ hs, HitFile h)
    (hm : ∀ h ∈ hs, subarrayOK h.msize h.count h.mstart = true)
    (hr : ∀ g ∈ groups hs, 1 < g.length → ∀ h ∈ g, RowOK h) (ho : hs.Pairwise InOrder) :
    ∃ mem', readHits disk hs mem = .ok mem' := by
  have hfl := groups_flatten hs
  obtain ⟨r, r1, r2, r3⟩ := genSegs_ok (gs := groups hs) (by rw [hfl]; exact hsh) (by rw [hfl]; exact hps)
    (by rw [hfl]; exact hf) (by rw [hfl]; exact hm) hr (groups_before hf ho)
  unfold readHits
  rw [r1]
  simp only [Res.ok_bind]
  unfold mpiRead
  have hv : viewOK (r.1.flatMap Seg.pairs) = true := by
    unfold viewOK
    rw [Bool.and_eq_true, decide_eq_true_eq, List.all_eq_true]
    refine ⟨r2, ?_⟩
    intro u hu
    obtain ⟨h, hh, hu'⟩ := r3 u hu
    rw [hfl] at hh
    have := hitPairs_range (hf h hh) hu'
    have := (hf h hh).lo
    simp only [decide_eq_true_eq]
    omega
  simp only [hv, if_true, Res.ok_bind]
  exact ⟨_, rfl⟩

end Verif
