import Verif.Spec.Copies

/-
C102: copies of selections.
-/

namespace Verif.Props

open _root_.Verif.Copies

theorem coords_same {n : Nat} {bs : List Box} (h : ∀ b ∈ bs, b.1.length = n ∧ b.2.length = n) : coords n bs = .ok bs := by
  have e : bs.map (fun b => (b.1.take n, b.2.take n)) = bs := by
    conv => rhs; rw [← List.map_id bs]
    refine List.map_congr_left fun b hb => ?_
    obtain ⟨h1, h2⟩ := h b hb
    rw [List.take_of_length_le (by omega), List.take_of_length_le (by omega)]
    rfl
  unfold coords
  rw [if_neg, e]
  rintro ⟨b, hb, c⟩
  obtain ⟨h1, h2⟩ := h b hb
  omega

theorem _root_.Verif.Copies.Sound.boxesOf {h : Heap} {o : Obj} {n : Nat} {bs : List Box} (s : Sound h o n bs) : boxesOf h o = .ok bs := by
  unfold Copies.boxesOf
  rcases s.boxes with ⟨e, _⟩ | ⟨_, a, e1, e2, _⟩
  · rw [if_pos (by rw [s.nsel, e]; rfl), e]
  · by_cases c : o.nsel = 0
    · rw [if_pos c]
      rw [s.nsel] at c
      rw [List.length_eq_zero_iff.1 c]
    · rw [if_neg c, e1]
      simp only [e2]
      rw [if_neg (by rw [s.nsel]; omega), List.take_of_length_le (by rw [s.nsel]; exact Nat.le_refl _)]

/-- **C102 (comparison).** `operator==` says whether rank and blocks of two selections are the same. -/
theorem C102_equal {h : Heap} {o s : Obj} {n m : Nat} {bs cs : List Box} (ho : Sound h o n bs) (hs : Sound h s m cs) :
    equal h o s = .ok (decide (n = m ∧ bs = cs)) := by
  unfold equal
  rw [ho.ndim, hs.ndim]
  simp only
  by_cases c : n ≠ m ∨ o.nsel ≠ s.nsel
  · rw [if_pos c]
    congr 1
    symm
    rw [decide_eq_false_iff_not]
    rintro ⟨e1, e2⟩
    rcases c with c | c
    · exact c e1
    · exact c (by rw [ho.nsel, hs.nsel, e2])
  · rw [if_neg c, ho.boxesOf, hs.boxesOf]
    have e : n = m := by by_cases d : n = m; exact d; exact absurd (.inl d) c
    subst e
    simp only [Res.ok_bind, coords_same ho.long, coords_same hs.long, Res.pure_eq, true_and]

theorem dropBoxes_ok {h : Heap} {o : Obj} {n : Nat} {bs : List Box} (s : Sound h o n bs) :
    ∃ h1, dropBoxes h o = .ok h1 ∧ h1.dims = h.dims ∧ h1.next = h.next ∧
      (∀ a, (o.deep = true → o.boxes ≠ some a) → h1.boxes a = h.boxes a) ∧
      (∀ a, o.deep = true → o.boxes = some a → h1.boxes a = none) := by
  unfold dropBoxes
  by_cases d : o.deep = true
  · rw [if_pos d]
    rcases s.boxes with ⟨_, e⟩ | ⟨_, a, e1, e2, _⟩
    · rw [e] at d; exact absurd d (by decide)
    · rw [e1]
      simp only [Heap.freeBoxes, e2]
      refine ⟨_, rfl, rfl, rfl, fun b hb => ?_, fun b _ hb => ?_⟩
      · have : b ≠ a := fun e => hb d (by rw [e])
        simp only [this, if_false]
      · have : b = a := (Option.some.inj hb).symm
        simp only [this, if_true]
  · rw [if_neg d]
    exact ⟨h, rfl, rfl, rfl, fun _ _ => rfl, fun _ c => absurd c d⟩

/-- **C102 (end of an object).** A selection can be destroyed, and one that shares nothing with it stays what it was. -/
theorem C102_destroy {h : Heap} {o s : Obj} {n m : Nat} {bs cs : List Box} (ho : Sound h o n bs) (hs : Sound h s m cs)
    (ap : Apart o s) : ∃ h', destroy h o = .ok h' ∧ Sound h' s m cs ∧ dimsOf h' s = dimsOf h s ∧
      (∀ a, o.dims = .at a → h'.dims a = none) ∧ (∀ a, o.deep = true → o.boxes = some a → h'.boxes a = none) ∧
      (∀ a, o.dims ≠ .at a → h'.dims a = h.dims a) ∧ (∀ a, (o.deep = true → o.boxes ≠ some a) → h'.boxes a = h.boxes a) ∧
      h'.next = h.next := by
  obtain ⟨g, hg, gb, gn, gk, gf⟩ : ∃ g, dropDims h o = .ok g ∧
      g.boxes = h.boxes ∧ g.next = h.next ∧ (∀ a, o.dims ≠ .at a → g.dims a = h.dims a) ∧ (∀ a, o.dims = .at a → g.dims a = none) := by
    unfold dropDims
    rcases ho.dims with e | ⟨a, v, e1, e2, _⟩
    · rw [e]
      exact ⟨h, rfl, rfl, rfl, fun _ _ => rfl, fun _ c => by cases c⟩
    · rw [e1]
      simp only [Heap.freeDims, e2]
      refine ⟨_, rfl, rfl, rfl, fun b hb => ?_, fun b hb => ?_⟩
      · have : b ≠ a := fun e => hb (by rw [e])
        simp only [this, if_false]
      · have : b = a := (DPtr.at.inj hb).symm
        simp only [this, if_true]
  have hd : ∃ h1, dropBoxes g o = .ok h1 ∧ h1.dims = g.dims ∧ h1.next = g.next ∧
      (∀ a, (o.deep = true → o.boxes ≠ some a) → h1.boxes a = g.boxes a) ∧
      (∀ a, o.deep = true → o.boxes = some a → h1.boxes a = none) := by
    unfold dropBoxes
    by_cases d : o.deep = true
    · rw [if_pos d]
      rcases ho.boxes with ⟨_, e⟩ | ⟨_, a, e1, e2, _⟩
      · rw [e] at d; exact absurd d (by decide)
      · rw [e1]
        simp only [Heap.freeBoxes, gb, e2]
        refine ⟨_, rfl, rfl, rfl, fun b hb => ?_, fun b _ hb => ?_⟩
        · have : b ≠ a := fun e => hb d (by rw [e])
          simp only [this, if_false]
        · have : b = a := (Option.some.inj hb).symm
          simp only [this, if_true]
    · rw [if_neg d]
      exact ⟨g, rfl, rfl, rfl, fun _ _ => rfl, fun _ c => absurd c d⟩
  obtain ⟨h1, hh, e1, e2, e3, e4⟩ := hd
  have keepD : ∀ a, s.dims = .at a → h1.dims a = h.dims a := fun a ha => by
    rw [e1]; exact gk a fun c => ap.1 a c ha
  refine ⟨h1, ?_, ⟨hs.ndim, ?_, hs.long, hs.nsel, ?_⟩, ?_, fun a ha => by rw [e1]; exact gf a ha, e4,
    fun a ha => by rw [e1]; exact gk a ha, fun a ha => by rw [e3 a ha, gb], by rw [e2, gn]⟩
  · unfold destroy
    rw [hg]
    exact hh
  · rcases hs.dims with e | ⟨a, v, d1, d2, d3, d4⟩
    · exact .inl e
    · exact .inr ⟨a, v, d1, by rw [keepD a d1]; exact d2, d3, by rw [e2, gn]; exact d4⟩
  · rcases hs.boxes with e | ⟨d0, a, d1, d2, d3⟩
    · exact .inl e
    · refine .inr ⟨d0, a, d1, ?_, by rw [e2, gn]; exact d3⟩
      rw [e3 a fun c e => ap.2.1 c (by rw [d1, e]), gb]
      exact d2
  · unfold dimsOf
    rw [hs.ndim]
    rcases hs.dims with e | ⟨a, v, d1, _⟩
    · rw [e]
    · rw [d1]; simp only [keepD a d1]

theorem dimsOf_at {h : Heap} {o : Obj} {a n : Nat} {v : List Nat} (h1 : o.dims = .at a) (h2 : o.ndim = some n)
    (h3 : h.dims a = some v) : dimsOf h o = some (v.take n) := by
  unfold dimsOf
  rw [h1, h2]
  simp only [h3, Option.map_some]

/-- What `copyDims` does. -/
theorem copyDims_ok {h : Heap} {o : Obj} {n m : Nat} {v : List Nat} (hn : o.ndim = some n)
    (hd : o.dims = .null ∨ ∃ a w, o.dims = .at a ∧ h.dims a = some w ∧ n ≤ w.length ∧ a < h.next) (hv : m ≤ v.length)
    (ready : n < m ∨ o.dims ≠ .null) :
    ∃ h1 b w, copyDims h o m v = .ok (h1, .at b) ∧ h1.dims b = some w ∧ m ≤ w.length ∧ w.take m = v.take m ∧ b < h1.next ∧
      (o.dims = .at b ∨ h.next ≤ b) ∧ h.next ≤ h1.next ∧ h1.boxes = h.boxes ∧
      (∀ a, a < h.next → o.dims ≠ .at a → h1.dims a = h.dims a) ∧ (∀ a, o.dims = .at a → b = a ∨ h1.dims a = none) := by
  have hl : (v.take m).length = m := by rw [List.length_take]; omega
  unfold copyDims
  rw [hn]
  simp only
  by_cases c : n < m
  · rw [if_pos c]
    rcases hd with e | ⟨a, w, e1, e2, _, e4⟩
    · rw [e]
      refine ⟨_, _, v.take m, rfl, ?_, by omega, by rw [List.take_take, Nat.min_self], ?_, .inr (Nat.le_refl _), ?_, rfl, ?_, ?_⟩
      · simp only [Heap.newDims, Heap.putDims, if_true]
      · simp only [Heap.newDims]; omega
      · simp only [Heap.newDims]; omega
      · intro a ha _
        have : a ≠ h.next := by omega
        simp only [Heap.newDims, Heap.putDims, this, if_false]
      · exact fun a c => (nomatch c)
    · rw [e1]
      simp only [Heap.freeDims, e2, Res.ok_bind, Res.pure_eq]
      refine ⟨_, _, v.take m, rfl, ?_, by omega, by rw [List.take_take, Nat.min_self], ?_, .inr (Nat.le_refl _), ?_, rfl, ?_, ?_⟩
      · simp only [Heap.newDims, Heap.putDims, if_true]
      · simp only [Heap.newDims]; omega
      · simp only [Heap.newDims]; omega
      · intro b hb hne
        have h1 : b ≠ h.next := by omega
        have h2 : b ≠ a := fun e => hne (by rw [e])
        simp only [Heap.newDims, Heap.putDims, h1, h2, if_false]
      · intro b hb
        cases hb
        have h1 : a ≠ h.next := by omega
        exact .inr (by simp only [Heap.newDims, Heap.putDims, h1, if_false, if_true])
  · rw [if_neg c]
    rcases hd with e | ⟨a, w, e1, e2, e3, e4⟩
    · rcases ready with r | r
      · exact absurd r c
      · exact absurd e r
    · rw [e1]
      simp only [e2]
      rw [if_neg (by omega)]
      refine ⟨_, a, v.take m ++ w.drop m, rfl, ?_, by rw [List.length_append, hl]; omega, ?_, e4, .inl rfl, Nat.le_refl _, rfl, ?_, fun b hb => .inl (DPtr.at.inj hb)⟩
      · simp only [Heap.putDims, if_true]
      · rw [List.take_append_of_le_length (by omega), List.take_take, Nat.min_self]
      · intro b _ hne
        have h2 : b ≠ a := fun e => hne (by rw [e])
        simp only [Heap.putDims, h2, if_false]

/-- **C102 (assignment).** `o = s` for two objects that share nothing: afterwards `o` has the rank, the dimension sizes and the
blocks of `s`, `s` is what it was, they compare equal, neither uses what the other owns, what `o` owned before was released or is
used again, and nothing else in memory changes.  Missing from the full statement: the release of the own sizes if the source has
none (`C102_leak_violated`), destinations without dimension sizes, and the
object itself (`C102_null_violated`, `C102_self_violated`). -/
theorem C102_assign_partial {h : Heap} {o s : Obj} {n m : Nat} {bs cs : List Box} (ho : Sound h o n bs) (hs : Sound h s m cs)
    (ap : Apart o s) (ready : s.dims = .null ∨ n < m ∨ o.dims ≠ .null) :
    ∃ h' o', assign h o s false = .ok (h', o') ∧ Sound h' o' m cs ∧ Sound h' s m cs ∧ dimsOf h' o' = dimsOf h s ∧
      dimsOf h' s = dimsOf h s ∧ equal h' o' s = .ok true ∧ Apart o' s ∧ Apart s o' ∧ o'.deep = s.deep ∧
      (∀ a, a < h.next → o.dims ≠ .at a → h'.dims a = h.dims a) ∧
      (∀ a, a < h.next → (o.deep = true → o.boxes ≠ some a) → h'.boxes a = h.boxes a) ∧
      (∀ a, a < h.next → o.deep = true → o.boxes = some a → h'.boxes a = none) ∧
      (∀ a, o.dims = .at a → s.dims ≠ .null → o'.dims = .at a ∨ h'.dims a = none) ∧
      (∀ a, o'.dims = .at a → o.dims = .at a ∨ h.next ≤ a) ∧ (s.deep = true → ∃ a, o'.boxes = some a ∧ h.next ≤ a ∧ a < h'.next) ∧
      (s.deep = false → o'.boxes = s.boxes) ∧ h.next ≤ h'.next := by
  obtain ⟨h1, hh, d1, d2, d3, d4⟩ := dropBoxes_ok ho
  have od1 : o.dims = .null ∨ ∃ a w, o.dims = .at a ∧ h1.dims a = some w ∧ n ≤ w.length ∧ a < h1.next := by rw [d1, d2]; exact ho.dims
  -- the dimension sizes
  obtain ⟨h2, p, hp, hb, hnx, hkeep, hrel, hnew, hfin⟩ : ∃ h2 p, dimsFrom h1 o s m = .ok (h2, p) ∧
      h2.boxes = h1.boxes ∧ h1.next ≤ h2.next ∧ (∀ a, a < h1.next → o.dims ≠ .at a → h2.dims a = h1.dims a) ∧
      (∀ a, o.dims = .at a → s.dims ≠ .null → p = .at a ∨ h2.dims a = none) ∧ (∀ a, p = .at a → o.dims = .at a ∨ h.next ≤ a) ∧
      (s.dims = .null ∧ p = .null ∨ ∃ a b v w, s.dims = .at a ∧ p = .at b ∧ h1.dims a = some v ∧ h2.dims b = some w ∧ m ≤ w.length ∧
        w.take m = v.take m ∧ b < h2.next ∧ b ≠ a) := by
    unfold dimsFrom
    rcases hs.dims with e | ⟨a, v, e1, e2, e3, e4⟩
    · rw [e]
      exact ⟨h1, .null, rfl, rfl, Nat.le_refl _, fun _ _ _ => rfl, fun _ _ c => absurd rfl c, fun _ c => (nomatch c), .inl ⟨rfl, rfl⟩⟩
    · have e2' : h1.dims a = some v := by rw [d1]; exact e2
      have rd : n < m ∨ o.dims ≠ .null := by
        rcases ready with r | r
        · rw [e1] at r; cases r
        · exact r
      obtain ⟨h2, b, w, c1, c2, c3, c4, c5, c6, c7, c8, c9, c10⟩ := copyDims_ok ho.ndim od1 e3 rd
      rw [e1]
      simp only [e2']
      rw [if_neg (by omega)]
      refine ⟨h2, .at b, c1, c8, c7, c9, fun k hk _ => (c10 k hk).imp (fun e => by rw [e]) id,
        fun k hk => by cases hk; rw [← d2]; exact c6, .inr ⟨a, b, v, w, rfl, rfl, e2', c2, c3, c4, c5, ?_⟩⟩
      rintro rfl
      rcases c6 with c6 | c6
      · exact ap.1 _ c6 e1
      · rw [d2] at c6; omega
  have sd2 : ∀ a, s.dims = .at a → h2.dims a = h.dims a := fun a ha => by
    rcases hs.dims with e | ⟨a', v, e1, _, _, e4⟩
    · rw [e] at ha; cases ha
    · rw [ha] at e1
      cases e1
      rw [hkeep a (by rw [d2]; exact e4) fun c => ap.1 a c ha, d1]
  have sb2 : ∀ a, s.boxes = some a → h2.boxes a = h.boxes a := fun a ha => by
    rw [hb]
    exact d3 a fun c e => ap.2.1 c (by rw [ha, e])
  have s2 : Sound h2 s m cs := by
    refine ⟨hs.ndim, ?_, hs.long, hs.nsel, ?_⟩
    · rcases hs.dims with e | ⟨a, v, e1, e2, e3, e4⟩
      · exact .inl e
      · exact .inr ⟨a, v, e1, by rw [sd2 a e1]; exact e2, e3, by omega⟩
    · rcases hs.boxes with e | ⟨e0, a, e1, e2, e3⟩
      · exact .inl e
      · exact .inr ⟨e0, a, e1, by rw [sb2 a e1]; exact e2, by omega⟩
  have pd : p = .null ∨ ∃ a v, p = .at a ∧ h2.dims a = some v ∧ m ≤ v.length ∧ a < h2.next := by
    rcases hfin with ⟨_, e⟩ | ⟨a, b, v, w, _, e, _, e3, e4, _, e6, _⟩
    · exact .inl e
    · exact .inr ⟨b, w, e, e3, e4, e6⟩
  have pne : ∀ a, p = .at a → s.dims ≠ .at a := fun a ha c => by
    rcases hfin with ⟨e, _⟩ | ⟨a', b, v, w, e1, e2, _, _, _, _, _, e7⟩
    · rw [e] at c; cases c
    · rw [e2] at ha; cases ha
      rw [e1] at c; cases c
      exact e7 rfl
  have pdim : ∀ q : Obj, q.dims = p → q.ndim = some m → dimsOf h2 q = dimsOf h s := fun q hq hqn => by
    rcases hfin with ⟨e1, e2⟩ | ⟨a, b, v, w, e1, e2, e3, e4, _, e6, _, _⟩
    · unfold dimsOf; rw [hq, e2, e1]
    · rw [dimsOf_at (hq.trans e2) hqn e4, dimsOf_at e1 hs.ndim (by rw [← d1]; exact e3), e6]
  have sdim : dimsOf h2 s = dimsOf h s := by
    unfold dimsOf
    rw [hs.ndim]
    rcases hs.dims with e | ⟨a, v, e1, _⟩
    · rw [e]
    · rw [e1]; simp only [sd2 a e1]
  have kd : ∀ a, a < h.next → o.dims ≠ .at a → h2.dims a = h.dims a := fun a ha hne => by
    rw [hkeep a (by rw [d2]; exact ha) hne, d1]
  by_cases sd : s.deep = true
  · rcases hs.boxes with ⟨_, e⟩ | ⟨e0, a, e1, e2, e3⟩
    · rw [e] at sd; exact absurd sd (by decide)
    · by_cases z : s.nsel = 0
      · have zc : cs = [] := List.length_eq_zero_iff.1 (by rw [← hs.nsel]; exact z)
        exact absurd zc e0
      · have bx : ∀ k, k ≠ h2.next → (h2.newBoxes cs).1.boxes k = h2.boxes k := fun k hk => by
          simp only [Heap.newBoxes, hk, if_false]
        have so : Sound (h2.newBoxes cs).1 ⟨some m, s.nsel, p, some (h2.newBoxes cs).2, true⟩ m cs := by
          refine ⟨rfl, ?_, hs.long, hs.nsel, .inr ⟨e0, _, rfl, ?_, ?_⟩⟩
          · rcases pd with e | ⟨b, w, f1, f2, f3, f4⟩
            · exact .inl e
            · exact .inr ⟨b, w, f1, f2, f3, by simp only [Heap.newBoxes]; omega⟩
          · simp only [Heap.newBoxes, if_true]
          · simp only [Heap.newBoxes]; omega
        have ss : Sound (h2.newBoxes cs).1 s m cs := by
          refine ⟨hs.ndim, ?_, hs.long, hs.nsel, .inr ⟨e0, a, e1, ?_, ?_⟩⟩
          · rcases s2.dims with e | ⟨b, w, f1, f2, f3, f4⟩
            · exact .inl e
            · exact .inr ⟨b, w, f1, f2, f3, by simp only [Heap.newBoxes]; omega⟩
          · rw [bx a (by omega), sb2 a e1]; exact e2
          · simp only [Heap.newBoxes]; omega
        have ne : s.boxes ≠ some (h2.newBoxes cs).2 := by
          rw [e1]
          intro c
          have := Option.some.inj c
          simp only [Heap.newBoxes] at this
          omega
        refine ⟨(h2.newBoxes cs).1, ⟨some m, s.nsel, p, some (h2.newBoxes cs).2, true⟩, ?_, so, ss, pdim _ rfl rfl, sdim, ?_,
          ⟨fun k hk => pne k hk, fun _ => ne, fun _ => ne⟩, ⟨fun k hk hk' => pne k hk' hk, fun _ => ne.symm, fun _ => ne.symm⟩,
          sd.symm, kd, fun k hk hne => ?_, fun k hk f1 f2 => ?_, hrel, hnew,
          fun _ => ⟨_, rfl, by simp only [Heap.newBoxes]; omega, by simp only [Heap.newBoxes]; omega⟩,
          fun c => (by rw [sd] at c; cases c), by simp only [Heap.newBoxes]; omega⟩
        · unfold assign
          rw [hh]
          simp only [Res.ok_bind, Bool.false_eq_true, if_false, hs.ndim]
          rw [hp]
          simp only [Res.ok_bind, sd, if_true]
          rw [if_neg z, s2.boxesOf]
          simp only [Res.ok_bind, coords_same hs.long, Res.pure_eq]
        · rw [C102_equal so ss]
          simp
        · rw [bx k (by omega), hb, d3 k hne]
        · rw [bx k (by omega), hb, d4 k f1 f2]
  · have so : Sound h2 ⟨some m, s.nsel, p, s.boxes, false⟩ m cs := by
      refine ⟨rfl, pd, hs.long, hs.nsel, ?_⟩
      rcases s2.boxes with ⟨e, _⟩ | e
      · exact .inl ⟨e, rfl⟩
      · exact .inr e
    refine ⟨h2, ⟨some m, s.nsel, p, s.boxes, false⟩, ?_, so, s2, pdim _ rfl rfl, sdim, ?_,
      ⟨fun k hk => pne k hk, fun c => (nomatch c), fun c => absurd c sd⟩,
      ⟨fun k hk hk' => pne k hk' hk, fun c => absurd c sd, fun c => (nomatch c)⟩,
      by simpa using sd, kd, fun k _ hne => ?_, fun k _ f1 f2 => ?_, hrel, hnew, fun c => absurd c sd, fun _ => rfl, by omega⟩
    · unfold assign
      rw [hh]
      simp only [Res.ok_bind, Bool.false_eq_true, if_false, hs.ndim]
      rw [hp]
      simp only [Res.ok_bind]
      rw [if_neg sd]
    · rw [C102_equal so s2]
      simp
    · rw [hb, d3 k hne]
    · rw [hb, d4 k f1 f2]

/-- **C102 (lifetimes).** After an assignment either of the two objects can be destroyed first: the other still has the blocks and
the dimension sizes, and can be destroyed as well. -/
theorem C102_lifetimes_partial {h : Heap} {o s : Obj} {n m : Nat} {bs cs : List Box} (ho : Sound h o n bs) (hs : Sound h s m cs)
    (ap : Apart o s) (ready : s.dims = .null ∨ n < m ∨ o.dims ≠ .null) :
    ∃ h' o', assign h o s false = .ok (h', o') ∧
      (∃ h1 h2, destroy h' s = .ok h1 ∧ boxesOf h1 o' = .ok cs ∧ dimsOf h1 o' = dimsOf h s ∧ destroy h1 o' = .ok h2) ∧
      (∃ h1 h2, destroy h' o' = .ok h1 ∧ boxesOf h1 s = .ok cs ∧ dimsOf h1 s = dimsOf h s ∧ destroy h1 s = .ok h2) := by
  have none : ∀ g : Heap, Sound g ⟨some 0, 0, .null, none, false⟩ 0 [] := fun g =>
    ⟨rfl, .inl rfl, fun b hb => absurd hb List.not_mem_nil, rfl, .inl ⟨rfl, rfl⟩⟩
  have free : ∀ x : Obj, Apart x ⟨some 0, 0, .null, Option.none, false⟩ ∨ x.deep = true ∧ x.boxes = Option.none := fun x => by
    by_cases c : x.deep = true ∧ x.boxes = Option.none
    · exact .inr c
    · exact .inl ⟨fun _ _ c => (nomatch c), fun d e => c ⟨d, e.symm⟩, fun c => (nomatch c)⟩
  have alone : ∀ (g : Heap) (x : Obj) (k : Nat) (xs : List Box), Sound g x k xs → ∃ g', destroy g x = .ok g' := fun g x k xs hx => by
    rcases free x with f | ⟨f1, f2⟩
    · obtain ⟨g', e, _⟩ := C102_destroy hx (none g) f
      exact ⟨g', e⟩
    · rcases hx.boxes with ⟨_, e⟩ | ⟨_, a, e, _⟩
      · rw [e] at f1; cases f1
      · rw [f2] at e; cases e
  obtain ⟨h', o', e1, so, ss, d1, d2, _, a1, a2, _⟩ := C102_assign_partial ho hs ap ready
  obtain ⟨h1, x1, x2, x3, _⟩ := C102_destroy ss so a2
  obtain ⟨h2, y1, y2, y3, _⟩ := C102_destroy so ss a1
  obtain ⟨h3, z1⟩ := alone _ _ _ _ x2
  obtain ⟨h4, z2⟩ := alone _ _ _ _ y2
  exact ⟨h', o', e1, ⟨h1, h3, x1, x2.boxesOf, x3.trans d1, z1⟩, ⟨h2, h4, y1, y2.boxesOf, y3.trans d2, z2⟩⟩

/-- **C102 (deep copies).** `convert_to_deep` gives an object blocks of its own, the same ones, and changes nothing else. -/
theorem C102_deep {h : Heap} {o : Obj} {n : Nat} {bs : List Box} (ho : Sound h o n bs) :
    ∃ h' o', toDeep h o = .ok (h', o') ∧ Sound h' o' n bs ∧ o'.dims = o.dims ∧ (bs ≠ [] → o'.deep = true) ∧
      (o.deep = false → bs ≠ [] → ∃ a, o'.boxes = some a ∧ h.next ≤ a) ∧ h'.dims = h.dims ∧
      (∀ a, a < h.next → h'.boxes a = h.boxes a) ∧ (o.deep = true → o' = o) ∧ (o.deep = false → bs = [] → o'.boxes = none ∧ o'.deep = false) ∧
      h.next ≤ h'.next := by
  unfold toDeep
  by_cases d : o.deep = true
  · rw [if_pos d]
    exact ⟨h, o, rfl, ho, rfl, fun _ => d, fun c => (by rw [d] at c; cases c), rfl, fun _ _ => rfl, fun _ => rfl,
      fun c => (by rw [d] at c; cases c), Nat.le_refl _⟩
  · rw [if_neg d]
    have d' : o.deep = false := by simpa using d
    by_cases z : o.nsel = 0
    · rw [if_pos z]
      have zb : bs = [] := List.length_eq_zero_iff.1 (by rw [← ho.nsel]; exact z)
      exact ⟨h, _, rfl, ⟨ho.ndim, ho.dims, ho.long, ho.nsel, .inl ⟨zb, d'⟩⟩, rfl, fun c => absurd zb c, fun _ c => absurd zb c, rfl,
        fun _ _ => rfl, fun c => absurd c d, fun _ _ => ⟨rfl, d'⟩, Nat.le_refl _⟩
    · rw [if_neg z, ho.ndim]
      simp only
      rw [ho.boxesOf]
      simp only [Res.ok_bind, coords_same ho.long, Res.pure_eq]
      have e0 : bs ≠ [] := fun e => z (by rw [ho.nsel, e]; rfl)
      refine ⟨_, _, rfl, ⟨rfl, ?_, ho.long, ho.nsel, .inr ⟨e0, _, rfl, ?_, ?_⟩⟩, rfl, fun _ => rfl,
        fun _ _ => ⟨_, rfl, Nat.le_refl _⟩, rfl, fun a ha => ?_, fun c => absurd c d, fun _ c => absurd c e0, ?_⟩
      · rcases ho.dims with e | ⟨a, v, e1, e2, e3, e4⟩
        · exact .inl e
        · exact .inr ⟨a, v, e1, e2, e3, by simp only [Heap.newBoxes]; omega⟩
      · simp only [Heap.newBoxes, if_true]
      · simp only [Heap.newBoxes]; omega
      · have : a ≠ h.next := by omega
        simp only [Heap.newBoxes, this, if_false]
      · simp only [Heap.newBoxes]; omega

/-- **C102 fails for the copy constructor.** It compares and reallocates members that were never set: whatever they hold, no
selection with dimension sizes can be copied by it. -/
theorem C102_copy_violated {h : Heap} {s : Obj} {n : Nat} {bs : List Box} (hs : Sound h s n bs) (hd : s.dims ≠ .null) (nsel : Nat)
    (boxes : Option Nat) : copyNew h s nsel boxes = .ub := by
  rcases hs.dims with e | ⟨a, v, e1, e2, e3, _⟩
  · exact absurd e hd
  · unfold copyNew assign dropBoxes
    simp only [Bool.false_eq_true, if_false, Res.ok_bind, hs.ndim]
    unfold dimsFrom
    simp only [e1, e2]
    rw [if_neg (by omega)]
    rfl

/-- **C102 fails for an object assigned to itself.** One that owns its blocks releases them and keeps the pointers. -/
theorem C102_self_violated {h : Heap} {o : Obj} {n : Nat} {bs : List Box} (ho : Sound h o n bs) (hd : o.deep = true) :
    ∃ h' o', assign h o o true = .ok (h', o') ∧ o'.nsel = bs.length ∧ boxesOf h' o' = .ub := by
  obtain ⟨h1, hh, d1, d2, _, d4⟩ := dropBoxes_ok ho
  rcases ho.boxes with ⟨_, e⟩ | ⟨e0, a, e1, e2, _⟩
  · rw [e] at hd; exact absurd hd (by decide)
  have hz : o.nsel ≠ 0 := fun e => e0 (List.length_eq_zero_iff.1 (by rw [← ho.nsel]; exact e))
  obtain ⟨h2, p, hp, hb⟩ : ∃ h2 p, dimsFrom h1 o ⟨some n, o.nsel, o.dims, o.boxes, false⟩ n = .ok (h2, p) ∧ h2.boxes = h1.boxes := by
    unfold dimsFrom
    rcases ho.dims with e | ⟨b, v, f1, f2, f3, f4⟩
    · simp only [e]
      exact ⟨h1, .null, rfl, rfl⟩
    · have f2' : h1.dims b = some v := by rw [d1]; exact f2
      simp only [f1, f2']
      rw [if_neg (by omega)]
      obtain ⟨h2, b', w, c1, _, _, _, _, _, _, c8, _, _⟩ :=
        copyDims_ok (h := h1) ho.ndim (.inr ⟨b, v, f1, f2', f3, by rw [d2]; exact f4⟩) f3 (.inr (by rw [f1]; exact fun c => nomatch c))
      exact ⟨h2, _, c1, c8⟩
  refine ⟨h2, ⟨some n, o.nsel, p, o.boxes, false⟩, ?_, ho.nsel, ?_⟩
  · unfold assign
    rw [hh]
    simp only [Res.ok_bind, if_true, ho.ndim]
    rw [hp]
    simp only [Res.ok_bind, Bool.false_eq_true, if_false]
  · unfold Copies.boxesOf
    simp only [e1]
    rw [if_neg hz, hb, d4 a hd e1]

/-- **C102 fails for destinations without dimension sizes.** If the destination has at least as many dimensions, the sizes are
copied to `NULL`. -/
theorem C102_null_violated {h : Heap} {o s : Obj} {n m : Nat} {bs cs : List Box} (ho : Sound h o n bs) (hs : Sound h s m cs)
    (hd : o.dims = .null) (hsd : s.dims ≠ .null) (hm : m ≤ n) : assign h o s false = .ub := by
  obtain ⟨h1, hh, d1, _⟩ := dropBoxes_ok ho
  rcases hs.dims with e | ⟨a, v, e1, e2, e3, _⟩
  · exact absurd e hsd
  · unfold assign
    rw [hh]
    simp only [Res.ok_bind, Bool.false_eq_true, if_false, hs.ndim]
    unfold dimsFrom
    simp only [e1, d1, e2]
    rw [if_neg (by omega)]
    unfold copyDims
    simp only [ho.ndim, hd]
    rw [if_neg (by omega)]
    rfl

/-- **C102: a source without dimension sizes** makes the destination forget its own without releasing them. -/
theorem C102_leak_violated {h : Heap} {o s : Obj} {n m a : Nat} {bs cs : List Box} (ho : Sound h o n bs) (hs : Sound h s m cs)
    (ap : Apart o s) (hd : o.dims = .at a) (hsd : s.dims = .null) :
    ∃ h' o' v, assign h o s false = .ok (h', o') ∧ o'.dims = .null ∧ h'.dims a = some v := by
  obtain ⟨h1, hh, d1, _, d3, _⟩ := dropBoxes_ok ho
  obtain ⟨h', o', e1, so, _⟩ := C102_assign_partial ho hs ap (.inl hsd)
  rcases ho.dims with e | ⟨b, v, f1, f2, _⟩
  · rw [hd] at e; cases e
  · rw [hd] at f1
    cases f1
    have key : o'.dims = .null ∧ h'.dims = h.dims := by
      unfold assign at e1
      rw [hh] at e1
      simp only [Res.ok_bind, Bool.false_eq_true, if_false, hs.ndim] at e1
      unfold dimsFrom at e1
      simp only [hsd, Res.ok_bind] at e1
      by_cases sd : s.deep = true
      · rw [if_pos sd] at e1
        by_cases z : s.nsel = 0
        · rw [if_pos z] at e1
          cases e1
          exact ⟨rfl, d1⟩
        · rw [if_neg z] at e1
          have s1 : boxesOf h1 s = .ok cs := by
            have : boxesOf h1 s = boxesOf h s := by
              unfold Copies.boxesOf
              cases hsb : s.boxes with
              | none => rfl
              | some k => simp only [d3 k fun c e => ap.2.1 c (by rw [hsb, e])]
            rw [this, hs.boxesOf]
          rw [s1] at e1
          simp only [Res.ok_bind, coords_same hs.long, Res.pure_eq] at e1
          cases e1
          exact ⟨rfl, d1⟩
      · rw [if_neg sd] at e1
        cases e1
        exact ⟨rfl, d1⟩
    exact ⟨h', o', v, e1, key.1, by rw [key.2]; exact f2⟩

/-! ### Instances -/

/-- Dimension sizes at 0, 1 and 2, blocks at 3 and 4. -/
def exHeap : Heap where
  dims k := if k = 0 then some [4, 6] else if k = 1 then some [9] else if k = 2 then some [7, 8, 5] else none
  boxes k := if k = 3 then some [([0, 1], [2, 2]), ([2, 0], [1, 3])] else if k = 4 then some [([3], [2])] else none
  next := 5

/-- Two blocks of its own in two dimensions. -/
def exTwo : Obj := ⟨some 2, 2, .at 0, some 3, true⟩
/-- One block of its own in one dimension. -/
def exOne : Obj := ⟨some 1, 1, .at 1, some 4, true⟩
/-- No block and no sizes, two dimensions. -/
def exBare : Obj := ⟨some 2, 0, .null, none, false⟩
/-- The blocks of somebody else, sizes of its own. -/
def exShared : Obj := ⟨some 1, 1, .at 1, some 4, false⟩

theorem exTwo_sound : Sound exHeap exTwo 2 [([0, 1], [2, 2]), ([2, 0], [1, 3])] :=
  ⟨rfl, .inr ⟨0, [4, 6], rfl, rfl, by decide, by decide⟩, by decide, rfl, .inr ⟨by decide, 3, rfl, rfl, by decide⟩⟩
theorem exOne_sound : Sound exHeap exOne 1 [([3], [2])] :=
  ⟨rfl, .inr ⟨1, [9], rfl, rfl, by decide, by decide⟩, by decide, rfl, .inr ⟨by decide, 4, rfl, rfl, by decide⟩⟩
theorem exShared_sound : Sound exHeap exShared 1 [([3], [2])] :=
  ⟨rfl, .inr ⟨1, [9], rfl, rfl, by decide, by decide⟩, by decide, rfl, .inr ⟨by decide, 4, rfl, rfl, by decide⟩⟩
theorem exBare_sound : Sound exHeap exBare 2 [] := ⟨rfl, .inl rfl, by decide, rfl, .inl ⟨rfl, rfl⟩⟩
theorem exApart : Apart exOne exTwo := ⟨fun a h c => (by cases h; cases c), fun _ => (by decide), fun _ => (by decide)⟩
theorem exApart_bare : Apart exOne exBare := ⟨fun a _ c => (nomatch c), fun _ => (by decide), fun c => (nomatch c)⟩

example : ∃ h' o', assign exHeap exOne exTwo false = .ok (h', o') ∧ equal h' o' exTwo = .ok true ∧ Apart o' exTwo := by
  obtain ⟨h', o', e, _, _, _, _, f, g, _⟩ := C102_assign_partial exOne_sound exTwo_sound exApart (.inr (.inl (by decide)))
  exact ⟨h', o', e, f, g⟩
example := C102_lifetimes_partial exOne_sound exTwo_sound exApart (.inr (.inl (by decide)))
example := C102_destroy exOne_sound exTwo_sound exApart
example : equal exHeap exOne exShared = .ok true := by rw [C102_equal exOne_sound exShared_sound]; decide
example : equal exHeap exOne exTwo = .ok false := by rw [C102_equal exOne_sound exTwo_sound]; decide
example := C102_deep exShared_sound
example := C102_copy_violated exTwo_sound (by decide) 0 none
example := C102_self_violated exTwo_sound rfl
example := C102_null_violated exBare_sound exTwo_sound rfl (by decide) (by decide)
example := C102_leak_violated exOne_sound exBare_sound exApart_bare rfl rfl

end Verif.Props
