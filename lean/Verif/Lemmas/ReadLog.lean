import Verif.Lemmas.Pairs
import Verif.Lemmas.Search

namespace Verif

open Spec (AW inBox InBlk)

theorem boxIdx_nodup : ∀ ns : List Nat, (boxIdx ns).Nodup
  | [] => by simp [boxIdx]
  | n :: ns => by
    unfold boxIdx
    rw [List.nodup_flatMap]
    refine ⟨?_, ?_⟩
    · intro x _
      exact (boxIdx_nodup ns).map (fun a b h => by simpa using h)
    · refine (List.nodup_range (n := n)).imp ?_
      intro a b hab
      simp only [Function.onFun, List.disjoint_left, List.mem_map]
      rintro _ ⟨y, _, rfl⟩ ⟨z, _, he⟩
      simp only [List.cons.injEq] at he
      exact hab he.1.symm

/-- Cells common to a written block and a requested block. -/
def common (s : MSel) (rb : Blk) : List (List Nat) :=
  match intersect s.start s.count rb.start rb.count with
  | none => []
  | some (os, oc) => cells os oc

/-- The shapes of a written block and a requested block agree. -/
structure Fit (n : Nat) (s : MSel) (rb : Blk) : Prop where
  s0 : s.start.length = n
  s1 : s.count.length = n
  r0 : rb.start.length = n
  r1 : rb.count.length = n

theorem mem_common {n : Nat} {s : MSel} {rb : Blk} (h : Fit n s rb) {x : List Nat} :
    x ∈ common s rb ↔ inBox s.start s.count x = true ∧ inBox rb.start rb.count x = true := by
  unfold common
  cases hi : intersect s.start s.count rb.start rb.count with
  | none =>
    have := intersect_none hi x
    simp [this]
  | some o =>
    obtain ⟨os, oc⟩ := o
    obtain ⟨i1, i2, i3, _, _, _⟩ := intersect_some (by rw [h.s0, h.s1]) (by rw [h.s0, h.r0])
      (by rw [h.s0, h.r1]) hi
    simp only
    rw [mem_cells (by rw [i1, i2]), i3]

theorem cells_nodup {s c : List Nat} (h : s.length = c.length) : (cells s c).Nodup := by
  unfold cells
  rw [List.Nodup, List.pairwise_map]
  refine (List.Pairwise.and_mem.mp (boxIdx_nodup c)).imp ?_
  rintro a b ⟨ha, hb, hab⟩ he
  apply hab
  have la := boxIdx_length ha
  have lb := boxIdx_length hb
  have : ∀ {s a b : List Nat}, a.length = s.length → b.length = s.length → adds s a = adds s b → a = b := by
    intro s
    induction s with
    | nil => intro a b h1 h2 _; rw [List.length_eq_zero_iff.mp h1, List.length_eq_zero_iff.mp h2]
    | cons s ss ih =>
      intro a b h1 h2 h3
      cases a with
      | nil => simp at h1
      | cons a as =>
        cases b with
        | nil => simp at h2
        | cons b bs =>
          simp only [adds, List.zipWith_cons_cons, List.cons.injEq, List.length_cons,
            Nat.add_right_cancel_iff] at *
          have := ih h1 h2 h3.2
          exact ⟨by omega, this⟩
  exact this (by omega) (by omega) he

theorem common_nodup {n : Nat} {s : MSel} {rb : Blk} (h : Fit n s rb) : (common s rb).Nodup := by
  unfold common
  cases hi : intersect s.start s.count rb.start rb.count with
  | none => simp
  | some o =>
    obtain ⟨os, oc⟩ := o
    obtain ⟨i1, i2, _⟩ := intersect_some (by rw [h.s0, h.s1]) (by rw [h.s0, h.r0])
      (by rw [h.s0, h.r1]) hi
    exact cells_nodup (by omega)

/-- Byte pairs produced by one written block and one requested block. -/
def blkPairs (e : Nat) (f : Int) (m : Nat) (s : MSel) (rb : Blk) : List (Int × Nat) :=
  (common s rb).flatMap (fun y =>
    elemPairs (f + (e * lin s.count (subs y s.start) : Nat)) (m + e * lin rb.count (subs y rb.start)) e)

theorem hitOf_pairs {q : RReq} {rb : Blk} {soff : Nat} {foff fsize : Int} {s : MSel}
    (h : Fit q.d.ndim s rb) : (hitOf q rb soff foff fsize s).flatMap hitPairs =
      blkPairs q.d.esize (foff + s.doff) (q.xbuf + soff) s rb := by
  unfold hitOf blkPairs common
  cases hi : intersect s.start s.count rb.start rb.count with
  | none => simp
  | some o =>
    obtain ⟨os, oc⟩ := o
    obtain ⟨i1, i2, _, _, _, i6⟩ := intersect_some (by rw [h.s0, h.s1]) (by rw [h.s0, h.r0])
      (by rw [h.s0, h.r1]) hi
    simp only [List.flatMap_cons, List.flatMap_nil, List.append_nil, hitPairs, cells, List.flatMap_map,
      Hit.key]
    apply List.flatMap_congr
    intro x hx
    have hl := boxIdx_length hx
    obtain ⟨j1, j2⟩ := i6 x (by omega)
    rw [j1, j2]

theorem hitOf_shape {q : RReq} {rb : Blk} {soff : Nat} {foff fsize : Int} {s : MSel}
    (h : Fit q.d.ndim s rb) {x : Hit} (hx : x ∈ hitOf q rb soff foff fsize s) :
    HitShape x ∧ (0 < q.d.esize → HitPos x) ∧ x.foff = foff ∧ x.doff = s.doff ∧ x.d = q.d := by
  unfold hitOf at hx
  cases hi : intersect s.start s.count rb.start rb.count with
  | none => simp [hi] at hx
  | some o =>
    obtain ⟨os, oc⟩ := o
    simp only [hi, List.mem_singleton] at hx
    obtain ⟨i1, i2, _, i4, _, _⟩ := intersect_some (by rw [h.s0, h.s1]) (by rw [h.s0, h.r0])
      (by rw [h.s0, h.r1]) hi
    subst hx
    refine ⟨⟨?_, ?_, ?_, h.s1, h.r1⟩, ?_, rfl, rfl, rfl⟩
    · simp only; rw [i2, h.s0]
    · simp only [subs, List.length_zipWith]; rw [i1, h.s0]; simp
    · simp only [subs, List.length_zipWith]; rw [i1, h.s0, h.r0]; simp
    · intro he
      refine ⟨he, ?_⟩
      have : ∀ {c oc ds : List Nat}, oc.length = c.length → ds.length = c.length →
          subarrayOK c oc ds = true → ∀ n ∈ oc, 0 < n := by
        intro c
        induction c with
        | nil => intro oc ds h1 _ _; rw [List.length_eq_zero_iff.mp h1]; simp
        | cons c cs ih =>
          intro oc ds h1 h2 h3
          cases oc with
          | nil => simp at h1
          | cons o os =>
            cases ds with
            | nil => simp at h2
            | cons d ds =>
              simp only [subarrayOK, Bool.and_eq_true, decide_eq_true_eq] at h3
              simp only [List.length_cons, Nat.add_right_cancel_iff] at h1 h2
              have := ih h1 h2 h3.2
              intro n hn
              rcases List.mem_cons.mp hn with rfl | hn
              · omega
              · exact this n hn
      exact this (by rw [i2, h.s0, h.s1]) (by simp only [subs, List.length_zipWith]; rw [i1, h.s0, h.s1]; simp) i4

theorem mem_elemPairs {f : Int} {m e : Nat} {p : Int × Nat} (h : p ∈ elemPairs f m e) :
    ∃ k, k < e ∧ p = (f + (k : Nat), m + k) := by
  unfold elemPairs at h
  obtain ⟨k, hk, rfl⟩ := List.mem_map.mp h
  exact ⟨k, by simpa using hk, rfl⟩

theorem mem_blkPairs {n e : Nat} {f : Int} {m : Nat} {s : MSel} {rb : Blk} (h : Fit n s rb)
    {p : Int × Nat} (hp : p ∈ blkPairs e f m s rb) :
    ∃ y k, inBox s.start s.count y = true ∧ inBox rb.start rb.count y = true ∧ k < e ∧
      p = (f + (e * lin s.count (subs y s.start) + k : Nat), m + (e * lin rb.count (subs y rb.start) + k)) := by
  unfold blkPairs at hp
  obtain ⟨y, hy, hp⟩ := List.mem_flatMap.mp hp
  obtain ⟨k, hk, rfl⟩ := mem_elemPairs hp
  obtain ⟨h1, h2⟩ := (mem_common h).mp hy
  refine ⟨y, k, h1, h2, hk, ?_⟩
  simp only [Prod.mk.injEq]
  constructor
  · push_cast; omega
  · omega

/-- Element index and byte determine the position in a block. -/
theorem mul_add_inj {e i j k l : Nat} (hk : k < e) (hl : l < e) (h : e * i + k = e * j + l) :
    i = j ∧ k = l := by
  have h1 := congrArg (· / e) h
  have h2 := congrArg (· % e) h
  have he : 0 < e := by omega
  simp only [Nat.mul_add_div he, Nat.div_eq_of_lt hk, Nat.div_eq_of_lt hl, Nat.mul_add_mod,
    Nat.mod_eq_of_lt hk, Nat.mod_eq_of_lt hl] at h1 h2
  exact ⟨by simpa using h1, h2⟩

theorem mul_add_lt {e i k n : Nat} (hi : i < n) (hk : k < e) : e * i + k < e * n := by
  calc e * i + k < e * i + e := by omega
    _ = e * (i + 1) := by rw [Nat.mul_add, Nat.mul_one]
    _ ≤ e * n := Nat.mul_le_mul_left _ hi

/-- File bytes used by a block lie in its data range. -/
theorem blkPairs_range {n e : Nat} {f : Int} {m : Nat} {s : MSel} {rb : Blk} (h : Fit n s rb)
    {p : Int × Nat} (hp : p ∈ blkPairs e f m s rb) :
    f ≤ p.1 ∧ p.1 < f + (e * prod s.count : Nat) ∧ m ≤ p.2 ∧ p.2 < m + e * prod rb.count := by
  obtain ⟨y, k, h1, h2, hk, rfl⟩ := mem_blkPairs h hp
  have a1 := mul_add_lt (lin_lt h1) hk
  have a2 := mul_add_lt (lin_lt h2) hk
  simp only
  omega

theorem blkPairs_nodup {n e : Nat} {f : Int} {m : Nat} {s : MSel} {rb : Blk} (h : Fit n s rb) :
    ((blkPairs e f m s rb).map Prod.fst).Nodup := by
  unfold blkPairs
  rw [List.map_flatMap, List.nodup_flatMap]
  constructor
  · intro y _
    unfold elemPairs
    rw [List.map_map]
    refine (List.nodup_range (n := e)).map ?_
    intro a b hab
    simp only [Function.comp] at hab
    omega
  · have hn := common_nodup h
    refine (List.Pairwise.and_mem.mp hn).imp ?_
    rintro a b ⟨ha, hb, hab⟩
    simp only [Function.onFun, List.disjoint_left, List.mem_map]
    rintro _ ⟨x, hx, rfl⟩ ⟨z, hz, he⟩
    obtain ⟨k, hk, rfl⟩ := mem_elemPairs hx
    obtain ⟨l, hl, rfl⟩ := mem_elemPairs hz
    simp only at he
    have := mul_add_inj (i := lin s.count (subs a s.start)) (j := lin s.count (subs b s.start)) hk hl (by omega)
    exact hab (lin_inj ((mem_common h).mp ha).1 ((mem_common h).mp hb).1 this.1)

theorem atAddr_flatMap {α : Type} (a : Nat) (f : α → List (Int × Nat)) (l : List α) :
    atAddr a (l.flatMap f) = l.flatMap (fun x => atAddr a (f x)) := by
  induction l with
  | nil => rfl
  | cons x l ih => simp [List.flatMap_cons, atAddr_append, ih]

theorem atAddr_nil {a : Nat} {ps : List (Int × Nat)} (h : ∀ p ∈ ps, p.2 ≠ a) : atAddr a ps = [] := by
  unfold atAddr
  rw [List.filter_eq_nil_iff]
  intro p hp
  simp [h p hp]

theorem atAddr_elem {f : Int} {m e k : Nat} (hk : k < e) :
    atAddr (m + k) (elemPairs f m e) = [(f + (k : Nat), m + k)] := by
  unfold atAddr elemPairs
  rw [List.filter_map]
  have : (List.range e).filter ((fun p : Int × Nat => decide (p.2 = m + k)) ∘
      fun k : Nat => (f + (k : Int), m + k)) = [k] := by
    have h1 : ((fun p : Int × Nat => decide (p.2 = m + k)) ∘ fun k : Nat => (f + (k : Int), m + k)) =
        (fun i => i == k) := by
      funext i
      simp only [Function.comp]
      rw [Bool.eq_iff_iff]
      simp
    rw [h1, List.filter_beq, List.Nodup.count List.nodup_range]
    simp [hk]
  rw [this]
  rfl

theorem flatMap_unique {α β : Type} {A : α → Prop} {f : α → List β} {l : List α} {x : α}
    (hx : x ∈ l) (hA : A x) (hp : l.Pairwise (fun y z => ¬ (A y ∧ A z)))
    (hf : ∀ y ∈ l, ¬ A y → f y = []) : l.flatMap f = f x := by
  induction l with
  | nil => simp at hx
  | cons y l ih =>
    rw [List.pairwise_cons] at hp
    rw [List.flatMap_cons]
    rcases List.mem_cons.mp hx with rfl | hx'
    · have : l.flatMap f = [] := by
        rw [List.flatMap_eq_nil_iff]
        intro z hz
        exact hf z (by simp [hz]) (fun h => hp.1 z hz ⟨hA, h⟩)
      rw [this, List.append_nil]
    · rw [hf y (by simp) (fun h => hp.1 x hx' ⟨h, hA⟩), List.nil_append]
      exact ih hx' hp.2 (fun z hz => hf z (by simp [hz]))

/-- The pair of a block that targets a given cell of the requested block. -/
theorem blkPairs_at {n e : Nat} {f : Int} {m : Nat} {s : MSel} {rb : Blk} (h : Fit n s rb)
    {c : List Nat} {k : Nat} (hc : inBox rb.start rb.count c = true) (hk : k < e) :
    atAddr (m + e * lin rb.count (subs c rb.start) + k) (blkPairs e f m s rb) =
      if inBox s.start s.count c = true then
        [(f + (e * lin s.count (subs c s.start) + k : Nat), m + e * lin rb.count (subs c rb.start) + k)]
      else [] := by
  unfold blkPairs
  rw [atAddr_flatMap]
  have other : ∀ y ∈ common s rb, y ≠ c →
      atAddr (m + e * lin rb.count (subs c rb.start) + k)
        (elemPairs (f + (e * lin s.count (subs y s.start) : Nat))
          (m + e * lin rb.count (subs y rb.start)) e) = [] := by
    intro y hy hne
    apply atAddr_nil
    intro p hp he
    obtain ⟨l, hl, rfl⟩ := mem_elemPairs hp
    simp only at he
    have := mul_add_inj (i := lin rb.count (subs y rb.start)) (j := lin rb.count (subs c rb.start)) hl hk (by omega)
    exact hne (lin_inj ((mem_common h).mp hy).2 hc this.1)
  split
  · rename_i hin
    rw [flatMap_unique (A := fun y => y = c) ((mem_common h).mpr ⟨hin, hc⟩) rfl ?_ ?_]
    · rw [atAddr_elem hk]
      simp only [List.cons.injEq, Prod.mk.injEq, and_true]
      push_cast; omega
    · refine (common_nodup h).imp ?_
      rintro a b hab ⟨h1, h2⟩
      exact hab (h1.trans h2.symm)
    · exact fun y hy hne => other y hy hne
  · rename_i hin
    rw [List.flatMap_eq_nil_iff]
    intro y hy
    apply other y hy
    rintro rfl
    exact hin ((mem_common h).mp hy).1

end Verif
