import Verif.Spec.Replay
import Verif.Model.Replay
import Verif.Lemmas.Split
import Mathlib.Data.List.Forall2

/-
Lists of writes: one process after the other, interleaved, split in blocks.
-/

namespace Verif

open Spec (AW AFile InBlk splitWrite cellByte lastByte dataOffset positions idxIn Covers NoRace FitsNow)

/-! ### `H5Dwrite` -/

/-- The `H5Dwrite` call for a write of a single block. -/
def ofAW (v : AW) : RWrite := ⟨v.did, v.d.esize, v.bs.headD ⟨[], []⟩, v.data⟩

theorem adds_subs : ∀ {s y : List Nat}, y.length = s.length → subs (adds s y) s = y
  | [], [], _ => rfl
  | s :: ss, y :: ys, h => by
    have ih := adds_subs (s := ss) (y := ys) (by simpa using h)
    simp only [subs, adds, List.zipWith_cons_cons] at *
    rw [ih]
    simp

theorem hwrite_eq (c : HData) {w : RWrite} (hl : w.blk.start.length = w.blk.count.length) (x : List Nat) {k : Nat}
    (hk : k < w.esize) :
    hwrite c w w.did x k = if InBlk w.blk x then w.data[w.esize * idxIn w.blk x + k]? else c w.did x k := by
  unfold hwrite
  rw [if_pos ⟨rfl, hk⟩]
  by_cases h : InBlk w.blk x
  · rw [if_pos h]
    cases hf : (boxIdx w.blk.count).find? (fun y => decide (adds w.blk.start y = x)) with
    | none =>
      exfalso
      rw [List.find?_eq_none] at hf
      have hm := (mem_cells hl).mpr h
      obtain ⟨y, hy, e⟩ := List.mem_map.mp hm
      exact hf y hy (by simp [e])
    | some y =>
      have h1 := List.find?_some hf
      have h2 := List.mem_of_find?_eq_some hf
      simp only [decide_eq_true_eq] at h1
      have h3 := boxIdx_length h2
      rw [idxIn_eq h, ← h1, adds_subs (by omega)]
      rfl
  · rw [if_neg h]
    cases hf : (boxIdx w.blk.count).find? (fun y => decide (adds w.blk.start y = x)) with
    | none => rfl
    | some y =>
      exfalso
      have h1 := List.find?_some hf
      have h2 := List.mem_of_find?_eq_some hf
      simp only [decide_eq_true_eq] at h1
      exact h ((mem_cells hl).mp (List.mem_map.mpr ⟨y, h2, h1⟩))

theorem hwrite_other (c : HData) {w : RWrite} {did : Nat} (h : did ≠ w.did) (x : List Nat) (k : Nat) :
    hwrite c w did x k = c did x k := by
  unfold hwrite
  rw [if_neg (fun hc => h hc.1)]

/-- A write of a single block with its data. -/
structure Single (v : AW) : Prop where
  one : ∃ b, v.bs = [b] ∧ b.start.length = b.count.length
  sized : v.Sized

theorem cellByte_one {v : AW} (h : Single v) (x : List Nat) {k : Nat} (_hk : k < v.d.esize) :
    cellByte v x k = if InBlk (ofAW v).blk x then v.data[v.d.esize * idxIn (ofAW v).blk x + k]? else none := by
  obtain ⟨b, hb, hl⟩ := h.one
  have e : (ofAW v).blk = b := by simp [ofAW, hb]
  rw [e]
  unfold cellByte positions
  rw [hb]
  simp only [List.mapIdx_cons, List.mapIdx_nil, List.flatten_cons, List.flatten_nil, List.append_nil]
  have h0 : dataOffset v.d.esize [b] 0 = 0 := by simp [dataOffset]
  by_cases h : InBlk b x
  · rw [if_pos h, if_pos h]
    simp [h0]
  · rw [if_neg h, if_neg h]; rfl

/-- After a sequence of `H5Dwrite` calls. -/
theorem foldl_hwrite : ∀ (l : List AW) (c : HData) (did : Nat) (x : List Nat) (k : Nat), (∀ v ∈ l, Single v) →
    (∀ v ∈ l, v.did = did → k < v.d.esize) →
    (l.map ofAW).foldl hwrite c did x k = (lastByte l did x k).or (c did x k)
  | [], c, did, x, k, _, _ => by simp [lastByte]
  | v :: l, c, did, x, k, h, hk => by
    rw [List.map_cons, List.foldl_cons, foldl_hwrite l _ did x k (fun v hv => h v (by simp [hv]))
      (fun v hv => hk v (by simp [hv])), ← List.singleton_append, lastByte_append, lastByte_single, Option.or_assoc]
    congr 1
    have hv := h v (by simp)
    by_cases hd : v.did = did
    · have hkv := hk v (by simp) hd
      rw [if_pos hd, cellByte_one hv x hkv]
      obtain ⟨b, hb, hl⟩ := hv.one
      have e : (ofAW v).blk = b := by simp [ofAW, hb]
      have := hwrite_eq c (w := ofAW v) (by rw [e]; exact hl) x (k := k) hkv
      have hd' : (ofAW v).did = did := hd
      rw [hd'] at this
      rw [this]
      by_cases hx : InBlk (ofAW v).blk x
      · rw [if_pos hx, if_pos hx]
        have hsz := hv.sized
        have hsz := hsz.2 (by simp [hb])
        unfold AW.Exact at hsz
        rw [hb] at hsz
        simp only [List.map_cons, List.map_nil, List.sum_cons, List.sum_nil, Nat.add_zero] at hsz
        rw [e] at hx ⊢
        have h1 := idxIn_lt hx
        have h2 : v.d.esize * idxIn b x + k < v.data.length := by
          rw [hsz]
          have : v.d.esize * (idxIn b x + 1) ≤ v.d.esize * b.size := Nat.mul_le_mul_left _ h1
          rw [Nat.mul_add] at this
          omega
        show v.data[v.d.esize * idxIn b x + k]? = _
        rw [List.getElem?_eq_getElem h2]
        rfl
      · rw [if_neg hx, if_neg hx]; rfl
    · rw [if_neg hd, hwrite_other c (by simpa [ofAW] using fun e => hd e.symm)]
      rfl

/-! ### Orders of writes -/

theorem interleaved_map {α β : Type} (f : α → β) {ls : List (List α)} {l : List β}
    (h : Interleaved (ls.map (List.map f)) l) : ∃ l', l = l'.map f ∧ Interleaved ls l' := by
  generalize hm : ls.map (List.map f) = ms at h
  induction h generalizing ls with
  | @done ms hn =>
    refine ⟨[], rfl, .done ?_⟩
    intro l hl
    have := hn (l.map f) (by rw [← hm]; exact List.mem_map_of_mem hl)
    simpa using this
  | @step ms i x xs l h1 _ ih =>
    rw [← hm, List.getElem?_map] at h1
    cases hi : ls[i]? with
    | none => rw [hi] at h1; simp at h1
    | some y =>
      rw [hi] at h1
      simp only [Option.map_some, Option.some.injEq] at h1
      cases y with
      | nil => simp at h1
      | cons y ys =>
        simp only [List.map_cons, List.cons.injEq] at h1
        obtain ⟨e1, e2⟩ := h1
        obtain ⟨l', h2, h3⟩ := ih (ls := ls.set i ys) (by rw [List.map_set, hm, e2])
        exact ⟨y :: l', by simp [h2, e1], .step i y ys l' hi h3⟩

theorem flatten_set_perm {α : Type} : ∀ {ls : List (List α)} {i : Nat} {x : α} {xs : List α}, ls[i]? = some (x :: xs) →
    ls.flatten.Perm (x :: (ls.set i xs).flatten)
  | [], _, _, _, h => by simp at h
  | l :: ls, 0, x, xs, h => by
    simp only [List.getElem?_cons_zero, Option.some.injEq] at h
    subst h
    simp
  | l :: ls, i + 1, x, xs, h => by
    simp only [List.getElem?_cons_succ] at h
    have := flatten_set_perm h
    simp only [List.set_cons_succ, List.flatten_cons]
    exact (this.append_left l).trans List.perm_middle

theorem Interleaved.perm {α : Type} {ls : List (List α)} {l : List α} (h : Interleaved ls l) : l.Perm ls.flatten := by
  induction h with
  | done hn =>
    rw [List.flatten_eq_nil_iff.mpr hn]
  | step i x xs l h1 _ ih => exact (ih.cons x).trans (flatten_set_perm h1).symm

theorem Interleaved.sub {α : Type} {ls : List (List α)} {l : List α} (h : Interleaved ls l) :
    ∀ m ∈ ls, m.Sublist l := by
  induction h with
  | done hn => intro m hm; rw [hn m hm]
  | @step ls i x xs l h1 _ ih =>
    intro m hm
    obtain ⟨j, hj, rfl⟩ := List.getElem_of_mem hm
    by_cases hij : i = j
    · subst hij
      rw [List.getElem?_eq_getElem hj] at h1
      simp only [Option.some.injEq] at h1
      rw [h1]
      exact (ih xs (List.mem_iff_getElem.mpr ⟨i, by simpa using hj, by simp⟩)).cons_cons x
    · have : ls[j] ∈ ls.set i xs := List.mem_iff_getElem.mpr ⟨j, by simpa using hj, by
        rw [List.getElem_set_ne hij]⟩
      exact (ih _ this).cons x

theorem interleaved_single {α : Type} {m l : List α} (h : Interleaved [m] l) : l = m := by
  have h1 := h.perm
  have h2 := h.sub m (by simp)
  simp only [List.flatten_cons, List.flatten_nil, List.append_nil] at h1
  exact (h2.eq_of_length h1.length_eq.symm).symm

/-- Some interleaving exists. -/
theorem interleaved_exists {α : Type} : ∀ (n : Nat) (ls : List (List α)), ls.flatten.length = n → ∃ l, Interleaved ls l
  | 0, ls, h => ⟨[], .done (by
      intro l hl
      exact List.flatten_eq_nil_iff.mp (List.length_eq_zero_iff.mp h) l hl)⟩
  | n + 1, ls, h => by
    have hne : ls.flatten ≠ [] := by
      intro hc
      rw [hc] at h
      simp at h
    have : ∃ l ∈ ls, l ≠ [] := by
      by_contra hc
      apply hne
      rw [List.flatten_eq_nil_iff]
      intro l hl
      by_contra hl'
      exact hc ⟨l, hl, hl'⟩
    obtain ⟨l, hl, hl'⟩ := this
    obtain ⟨i, hi, rfl⟩ := List.getElem_of_mem hl
    obtain ⟨x, xs, e⟩ := List.exists_cons_of_ne_nil hl'
    have hg : ls[i]? = some (x :: xs) := by rw [List.getElem?_eq_getElem hi, e]
    have hp := (flatten_set_perm hg).length_eq
    obtain ⟨l, hl⟩ := interleaved_exists n (ls.set i xs) (by simp only [List.length_cons] at hp; omega)
    exact ⟨x :: l, .step i x xs l hg hl⟩

/-- If only one of the lists has elements of a kind, the order of these elements is fixed by it. -/
theorem filter_one {α : Type} {P : α → Bool} : ∀ {ls : List (List α)},
    ls.Pairwise (fun p q => ∀ w ∈ p, ∀ w' ∈ q, ¬ (P w = true ∧ P w' = true)) →
    ls.flatten.filter P = [] ∨ ∃ s ∈ ls, ls.flatten.filter P = s.filter P
  | [], _ => .inl rfl
  | s :: ls, h => by
    rw [List.pairwise_cons] at h
    rw [List.flatten_cons, List.filter_append]
    by_cases hs : s.filter P = []
    · rw [hs, List.nil_append]
      rcases filter_one h.2 with h1 | ⟨t, ht, h1⟩
      · exact .inl h1
      · exact .inr ⟨t, by simp [ht], h1⟩
    · right
      refine ⟨s, by simp, ?_⟩
      obtain ⟨w, hw⟩ := List.exists_mem_of_ne_nil _ hs
      rw [List.mem_filter] at hw
      have : ls.flatten.filter P = [] := by
        rw [List.filter_eq_nil_iff]
        intro w' hw'
        obtain ⟨t, ht, hwt⟩ := List.mem_flatten.mp hw'
        intro hc
        exact h.1 t ht w hw.1 w' hwt ⟨hw.2, hc⟩
      rw [this, List.append_nil]

theorem order_fixed {α : Type} {P : α → Bool} {ls : List (List α)} {l : List α}
    (hp : (l.filter P).Perm (ls.flatten.filter P)) (hs : ∀ s ∈ ls, (s.filter P).Sublist (l.filter P))
    (h : ls.Pairwise (fun p q => ∀ w ∈ p, ∀ w' ∈ q, ¬ (P w = true ∧ P w' = true))) :
    l.filter P = ls.flatten.filter P := by
  rcases filter_one h with h1 | ⟨s, hsm, h1⟩
  · rw [h1] at hp ⊢
    exact List.perm_nil.mp hp
  · rw [h1] at hp ⊢
    exact ((hs s hsm).eq_of_length hp.length_eq.symm).symm

/-- Only the writes that cover the cell matter. -/
def coversB (did : Nat) (x : List Nat) (w : AW) : Bool := decide (w.did = did) && w.bs.any (fun b => decide (InBlk b x))

theorem coversB_iff {did : Nat} {x : List Nat} {w : AW} : coversB did x w = true ↔ Covers did x w := by
  unfold coversB Covers
  simp

theorem cellByte_uncov {w : AW} {x : List Nat} {k : Nat} (h : ∀ b ∈ w.bs, ¬ InBlk b x) : cellByte w x k = none := by
  have : positions w.d.esize w.bs x = [] := by
    unfold positions
    rw [List.flatten_eq_nil_iff]
    intro l hl
    rw [List.mem_mapIdx] at hl
    obtain ⟨i, hi, rfl⟩ := hl
    rw [if_neg (h _ (List.getElem_mem hi))]
  unfold cellByte
  rw [this]
  rfl

theorem lastByte_filter (l : List AW) (did : Nat) (x : List Nat) (k : Nat) :
    lastByte (l.filter (coversB did x)) did x k = lastByte l did x k := by
  induction l with
  | nil => rfl
  | cons w l ih =>
    have hs : lastByte (w :: l) did x k = (lastByte l did x k).or (lastByte [w] did x k) := by
      rw [← List.singleton_append, lastByte_append]
    by_cases hc : coversB did x w = true
    · rw [List.filter_cons_of_pos hc, ← List.singleton_append, lastByte_append, ih, hs]
    · rw [List.filter_cons_of_neg hc, ih, hs, lastByte_single]
      split
      · rename_i hd
        rw [cellByte_uncov]
        · simp
        · intro b hb hx
          exact hc (coversB_iff.mpr ⟨hd, b, hb, hx⟩)
      · simp

theorem lastByte_flatMap_split (l : List AW) (did : Nat) (x : List Nat) (k : Nat) (hs : ∀ w ∈ l, w.Sized)
    (hk : ∀ w ∈ l, w.did = did → k < w.d.esize) : lastByte (l.flatMap splitWrite) did x k = lastByte l did x k := by
  induction l with
  | nil => rfl
  | cons w l ih =>
    rw [List.flatMap_cons, lastByte_append, ih (fun v hv => hs v (by simp [hv])) (fun v hv => hk v (by simp [hv])),
      ← List.singleton_append, lastByte_append]
    congr 1
    by_cases hd : w.did = did
    · exact lastByte_split (hs w (by simp)) did x (hk w (by simp) hd)
    · rw [lastByte_single, if_neg hd]
      unfold lastByte
      have hf : (splitWrite w).filter (fun v => decide (v.did = did)) = [] := by
        rw [List.filter_eq_nil_iff]
        intro v hv
        rw [splitWrite_did hv]; simp [hd]
      rw [hf]; rfl

theorem splitWrite_covers {w v : AW} (h : v ∈ splitWrite w) {did : Nat} {x : List Nat} (hc : Covers did x v) :
    Covers did x w := by
  unfold splitWrite at h
  rw [List.mem_mapIdx] at h
  obtain ⟨i, hi, rfl⟩ := h
  obtain ⟨h1, b, hb, h2⟩ := hc
  rw [List.mem_singleton] at hb
  subst hb
  exact ⟨h1, _, List.getElem_mem hi, h2⟩

/-- Elements sorted by a number, order kept among equal ones. -/
def byNum {α : Type} (f : α → Nat) (n : Nat) (l : List α) : List α :=
  (List.range n).flatMap (fun i => l.filter (fun a => decide (f a = i)))

theorem byNum_filter {α : Type} (f : α → Nat) {n j : Nat} (hj : j < n) (l : List α) :
    (byNum f n l).filter (fun a => decide (f a = j)) = l.filter (fun a => decide (f a = j)) := by
  unfold byNum
  have key : ∀ i, (l.filter (fun a => decide (f a = i))).filter (fun a => decide (f a = j)) =
      if i = j then l.filter (fun a => decide (f a = j)) else [] := by
    intro i
    rw [List.filter_filter]
    split
    · rename_i h
      subst h
      congr 1
      funext a
      simp
    · rename_i h
      rw [List.filter_eq_nil_iff]
      intro a _
      simp only [Bool.and_eq_true, decide_eq_true_eq, not_and]
      omega
  rw [List.filter_flatMap]
  have : (List.range n).flatMap (fun i => (l.filter (fun a => decide (f a = i))).filter (fun a => decide (f a = j))) =
      (List.range n).flatMap (fun i => if i = j then l.filter (fun a => decide (f a = j)) else []) :=
    List.flatMap_congr (fun i _ => key i)
  rw [this]
  have h2 : List.range n = List.range j ++ j :: (List.range (n - (j + 1))).map (fun x => j + 1 + x) := by
    have := List.range_add (n := j + 1) (m := n - (j + 1))
    rw [show j + 1 + (n - (j + 1)) = n by omega, List.range_succ] at this
    rw [this]; simp
  rw [h2, List.flatMap_append, List.flatMap_cons, if_pos rfl]
  have e1 : (List.range j).flatMap (fun i => if i = j then l.filter (fun a => decide (f a = j)) else []) = [] := by
    rw [List.flatMap_eq_nil_iff]
    intro i hi
    rw [List.mem_range] at hi
    rw [if_neg (by omega)]
  have e2 : ((List.range (n - (j + 1))).map (fun x => j + 1 + x)).flatMap
      (fun i => if i = j then l.filter (fun a => decide (f a = j)) else []) = [] := by
    rw [List.flatMap_eq_nil_iff]
    intro i hi
    obtain ⟨a, _, rfl⟩ := List.mem_map.mp hi
    rw [if_neg (by omega)]
  rw [e1, e2]
  simp

theorem byNum_mem {α : Type} {f : α → Nat} {n : Nat} {l : List α} {a : α} (h : a ∈ byNum f n l) : a ∈ l := by
  unfold byNum at h
  obtain ⟨i, _, hi⟩ := List.mem_flatMap.mp h
  exact (List.mem_filter.mp hi).1

theorem flatMap_swap {α β γ : Type} (f : α → β → List γ) (as : List α) : ∀ (bs : List β),
    (as.flatMap (fun a => bs.flatMap (f a))).Perm (bs.flatMap (fun b => as.flatMap (fun a => f a b)))
  | [] => by simp
  | b :: bs => by
    simp only [List.flatMap_cons]
    exact (List.flatMap_append_perm as _ _).symm.trans ((flatMap_swap f as bs).append_left _)

end Verif
