import Verif.Props.Copies

/-
C102: programs that make, assign, convert and destroy selections.
-/

namespace Verif.Props

open _root_.Verif.Copies

theorem _root_.Verif.Copies.Apart.symm {o s : Obj} (h : Apart o s) : Apart s o :=
  ⟨fun a h1 h2 => h.1 a h2 h1, fun d e => h.2.2 d e.symm, fun d e => h.2.1 d e.symm⟩

theorem sound_frame {h h' : Heap} {t : Obj} {m : Nat} {cs : List Box} (st : Sound h t m cs)
    (hd : ∀ a, t.dims = .at a → a < h.next → h'.dims a = h.dims a) (hb : ∀ a, t.boxes = some a → h'.boxes a = h.boxes a)
    (hn : h.next ≤ h'.next) : Sound h' t m cs ∧ dimsOf h' t = dimsOf h t := by
  refine ⟨⟨st.ndim, ?_, st.long, st.nsel, ?_⟩, ?_⟩
  · rcases st.dims with e | ⟨a, v, e1, e2, e3, e4⟩
    · exact .inl e
    · exact .inr ⟨a, v, e1, by rw [hd a e1 e4]; exact e2, e3, by omega⟩
  · rcases st.boxes with e | ⟨e0, a, e1, e2, e3⟩
    · exact .inl e
    · exact .inr ⟨e0, a, e1, by rw [hb a e1]; exact e2, by omega⟩
  · unfold dimsOf
    rw [st.ndim]
    rcases st.dims with e | ⟨a, v, e1, _, _, e4⟩
    · rw [e]
    · rw [e1]; simp only [hd a e1 e4]

theorem sizes_null {h : Heap} {o : Obj} {n : Nat} {bs : List Box} (s : Sound h o n bs) : dimsOf h o = none ↔ o.dims = .null := by
  rcases s.dims with e | ⟨a, v, e1, e2, _⟩
  · refine ⟨fun _ => e, fun _ => ?_⟩
    unfold dimsOf; rw [e]
  · rw [dimsOf_at e1 s.ndim e2, e1]
    exact ⟨fun c => (nomatch c), fun c => (nomatch c)⟩

/-- What holds between the statements of a program. -/
structure ValKept (user : Nat → Option (List Box)) (w : World) (vals : Nat → Option Val) : Prop where
  shown : ∀ i, Shows w.heap (w.vars i) (vals i)
  apart : ∀ i j o s, i ≠ j → w.vars i = some o → w.vars j = some s → Apart o s
  arrays : ∀ a bs, user a = some bs → w.heap.boxes a = some bs ∧ a < w.heap.next
  owned : ∀ i o a, w.vars i = some o → o.deep = true → o.boxes = some a → user a = none
  below : ∀ i o a, w.vars i = some o → o.boxes = some a → a < w.heap.next

theorem ValKept.put {user : Nat → Option (List Box)} {w : World} {vals : Nat → Option Val} (H : ValKept user w vals) {i : Nat} {h' : Heap}
    {ox : Option Obj} {x : Option Val} (hn : w.heap.next ≤ h'.next)
    (hk : ∀ k t, k ≠ i → w.vars k = some t → (∀ a, t.dims = .at a → a < w.heap.next → h'.dims a = w.heap.dims a) ∧
      (∀ a, t.boxes = some a → a < w.heap.next → h'.boxes a = w.heap.boxes a))
    (hu : ∀ a bs, user a = some bs → a < w.heap.next → h'.boxes a = w.heap.boxes a) (hx : Shows h' ox x)
    (hap : ∀ o' k t, ox = some o' → k ≠ i → w.vars k = some t → Apart o' t)
    (hown : ∀ o' a, ox = some o' → o'.deep = true → o'.boxes = some a → user a = none)
    (hbel : ∀ o' a, ox = some o' → o'.boxes = some a → a < h'.next) :
    ValKept user (w.set i h' ox) (fun k => if k = i then x else vals k) := by
  have at_i : (w.set i h' ox).vars i = ox := by simp only [World.set, if_true]
  have at_k : ∀ k, k ≠ i → (w.set i h' ox).vars k = w.vars k := fun k hk => by simp only [World.set, hk, if_false]
  refine ⟨fun k => ?_, fun k l o s hkl ho hs => ?_, fun a bs ha => ?_, fun k o a ho hd hb => ?_, fun k o a ho hb => ?_⟩
  · by_cases c : k = i
    · rw [c, at_i, if_pos rfl]; exact hx
    · rw [at_k k c, if_neg c]
      have hs := H.shown k
      cases hv : w.vars k with
      | none => rw [hv] at hs; cases hvv : vals k with
        | none => trivial
        | some y => rw [hvv] at hs; exact hs.elim
      | some t => rw [hv] at hs; cases hvv : vals k with
        | none => rw [hvv] at hs; exact hs.elim
        | some y =>
          rw [hvv] at hs
          obtain ⟨h1, h2⟩ := hk k t c hv
          obtain ⟨f1, f2⟩ := sound_frame hs.1 h1 (fun a ha => h2 a ha (H.below k t a hv ha)) hn
          exact ⟨f1, f2.trans hs.2⟩
  · by_cases c : k = i
    · rw [c, at_i] at ho
      have hl : l ≠ i := fun e => hkl (by rw [c, e])
      rw [at_k l hl] at hs
      exact hap o l s ho hl hs
    · rw [at_k k c] at ho
      by_cases d : l = i
      · rw [d, at_i] at hs
        exact (hap s k o hs c ho).symm
      · rw [at_k l d] at hs
        exact H.apart k l o s hkl ho hs
  · obtain ⟨h1, h2⟩ := H.arrays a bs ha
    exact ⟨(hu a bs ha h2).trans h1, Nat.lt_of_lt_of_le h2 hn⟩
  · by_cases c : k = i
    · rw [c, at_i] at ho; exact hown o a ho hd hb
    · rw [at_k k c] at ho; exact H.owned k o a ho hd hb
  · by_cases c : k = i
    · rw [c, at_i] at ho; exact hbel o a ho hb
    · rw [at_k k c] at ho; exact Nat.lt_of_lt_of_le (H.below k o a ho hb) hn

theorem ValKept.obj {user : Nat → Option (List Box)} {w : World} {vals : Nat → Option Val} (H : ValKept user w vals) {i : Nat} {x : Val}
    (h : vals i = some x) : ∃ o, w.vars i = some o ∧ Sound w.heap o x.rank x.blocks ∧ dimsOf w.heap o = x.sizes := by
  have hs := H.shown i
  rw [h] at hs
  cases hv : w.vars i with
  | none => rw [hv] at hs; exact hs.elim
  | some o => rw [hv] at hs; exact ⟨o, rfl, hs⟩

theorem ValKept.free {user : Nat → Option (List Box)} {w : World} {vals : Nat → Option Val} (H : ValKept user w vals) {i : Nat}
    (h : vals i = none) : w.vars i = none := by
  have hs := H.shown i
  rw [h] at hs
  cases hv : w.vars i with
  | none => rfl
  | some o => rw [hv] at hs; exact hs.elim

theorem deep_some {h : Heap} {o : Obj} {n : Nat} {bs : List Box} (s : Sound h o n bs) (d : o.deep = true) : ∃ a, o.boxes = some a := by
  rcases s.boxes with ⟨_, e⟩ | ⟨_, a, e, _⟩
  · rw [e] at d; cases d
  · exact ⟨a, e⟩

/-- A new object. -/
theorem ValKept.make {user : Nat → Option (List Box)} {w : World} {vals : Nat → Option Val} (H : ValKept user w vals) {i n nsel : Nat}
    {v : Option (List Nat)} {boxes : Option Nat} {bs : List Box} (hi : vals i = none) (hv : ∀ l, v = some l → l.length = n)
    (hb : boxes = none ∧ bs = [] ∨ bs ≠ [] ∧ ∃ a, boxes = some a ∧ user a = some bs) (hl : nsel = bs.length)
    (hlong : ∀ b ∈ bs, b.1.length = n ∧ b.2.length = n) :
    ∃ w', w.step (.make i n v nsel boxes) = .ok w' ∧ ValKept user w' (fun k => if k = i then some ⟨n, v, bs⟩ else vals k) := by
  have hap : ∀ p : DPtr, (∀ a, p = .at a → w.heap.next ≤ a) → ∀ k t, k ≠ i → w.vars k = some t → Apart ⟨some n, nsel, p, boxes, false⟩ t := by
    intro p hp k t hk ht
    have hs := H.shown k
    rw [ht] at hs
    cases hvk : vals k with
    | none => rw [hvk] at hs; exact hs.elim
    | some y =>
      rw [hvk] at hs
      refine ⟨fun a ha c => ?_, fun c => (nomatch c), fun d e => ?_⟩
      · have := hp a ha
        rcases hs.1.dims with e | ⟨a', _, e1, _, _, e4⟩
        · rw [e] at c; cases c
        · rw [c] at e1; cases e1; omega
      · obtain ⟨a, ha⟩ := deep_some hs.1 d
        rcases hb with ⟨hb, _⟩ | ⟨_, a', hb, hu⟩
        · rw [ha] at e; simp only [hb] at e; cases e
        · rw [ha] at e; simp only [hb] at e; cases e
          rw [H.owned k t a ht d ha] at hu; cases hu
  have hbx : ∀ h' : Heap, h'.boxes = w.heap.boxes → w.heap.next ≤ h'.next → (bs = [] ∧ false = false ∨ bs ≠ [] ∧ ∃ a, boxes = some a ∧ h'.boxes a = some bs ∧
      a < h'.next) := fun h' e1 e2 => by
    rcases hb with ⟨_, hb⟩ | ⟨hb0, a, hb, hu⟩
    · exact .inl ⟨hb, rfl⟩
    · obtain ⟨u1, u2⟩ := H.arrays a bs hu
      exact .inr ⟨hb0, a, hb, by rw [e1]; exact u1, by omega⟩
  have hbel : ∀ (h' : Heap) (a : Nat), w.heap.next ≤ h'.next → boxes = some a → a < h'.next := fun h' a e1 e2 => by
    rcases hb with ⟨hb, _⟩ | ⟨_, a', hb, hu⟩
    · rw [hb] at e2; cases e2
    · rw [hb] at e2; cases e2
      have := (H.arrays a bs hu).2
      omega
  unfold World.step
  simp only [H.free hi]
  cases v with
  | none =>
    refine ⟨_, rfl, H.put (Nat.le_refl _) (fun _ _ _ _ => ⟨fun _ _ _ => rfl, fun _ _ _ => rfl⟩) (fun _ _ _ _ => rfl) ?_ ?_ ?_ ?_⟩
    · exact ⟨⟨rfl, .inl rfl, hlong, hl, hbx _ rfl (Nat.le_refl _)⟩, rfl⟩
    · intro o' k t ho; cases ho; exact hap .null (fun a c => nomatch c) k t
    · intro o' a ho d; cases ho; cases d
    · intro o' a ho d; cases ho; exact hbel _ a (Nat.le_refl _) d
  | some l =>
    have hll := hv l rfl
    unfold Copies.make
    simp only
    rw [if_neg (by omega)]
    have ht : l.take n = l := List.take_of_length_le (by omega)
    have hnx : w.heap.next ≤ (w.heap.newDims (l.take n)).1.next := by simp only [Heap.newDims]; omega
    have hnew : (w.heap.newDims (l.take n)).1.dims (w.heap.newDims (l.take n)).2 = some (l.take n) := by
      simp only [Heap.newDims, Heap.putDims, if_true]
    refine ⟨_, rfl, H.put hnx (fun k t _ _ => ⟨fun a _ ha => ?_, fun _ _ _ => rfl⟩) (fun _ _ _ _ => rfl) ?_ ?_ ?_ ?_⟩
    · have : a ≠ w.heap.next := by omega
      simp only [Heap.newDims, Heap.putDims, this, if_false]
    · refine ⟨⟨rfl, .inr ⟨_, _, rfl, hnew, by rw [ht]; exact Nat.le_of_eq hll.symm, by simp only [Heap.newDims]; omega⟩, hlong, hl, hbx _ rfl hnx⟩, ?_⟩
      rw [dimsOf_at rfl rfl hnew, ht, ht]
    · intro o' k t ho
      cases ho
      exact hap _ (fun a c => by cases c; exact Nat.le_refl _) k t
    · intro o' a ho d; cases ho; cases d
    · intro o' a ho d; cases ho; exact hbel _ a hnx d

/-- One statement. -/
theorem ValKept.step {user : Nat → Option (List Box)} {w : World} {vals vals' : Nat → Option Val} (H : ValKept user w vals) {s : Stmt}
    (hm : meaning user vals s = some vals') : ∃ w', w.step s = .ok w' ∧ ValKept user w' vals' := by
  cases s with
  | make i n v nsel boxes =>
    unfold meaning at hm
    simp only at hm
    by_cases c : vals i = none ∧ (∀ l, v = some l → l.length = n)
    · rw [if_pos c] at hm
      cases boxes with
      | none =>
        simp only at hm
        by_cases z : nsel = 0
        · rw [if_pos z] at hm
          cases hm
          exact H.make c.1 c.2 (.inl ⟨rfl, rfl⟩) z (fun b hb => absurd hb List.not_mem_nil)
        · rw [if_neg z] at hm; cases hm
      | some a =>
        simp only at hm
        cases hu : user a with
        | none => rw [hu] at hm; cases hm
        | some bs =>
          rw [hu] at hm
          simp only at hm
          by_cases z : bs ≠ [] ∧ nsel = bs.length ∧ (∀ b ∈ bs, b.1.length = n ∧ b.2.length = n)
          · rw [if_pos z] at hm
            cases hm
            exact H.make c.1 c.2 (.inr ⟨z.1, a, rfl, hu⟩) z.2.1 z.2.2
          · rw [if_neg z] at hm; cases hm
    · rw [if_neg c] at hm; cases hm
  | assign i j =>
    unfold meaning at hm
    simp only at hm
    cases hx : vals i with
    | none => rw [hx] at hm; cases hm
    | some x =>
      cases hy : vals j with
      | none => rw [hx, hy] at hm; cases hm
      | some y =>
        rw [hx, hy] at hm
        simp only at hm
        by_cases c : i ≠ j ∧ (y.sizes = none ∨ x.rank < y.rank ∨ x.sizes ≠ none)
        · rw [if_pos c] at hm
          cases hm
          obtain ⟨o, o1, o2, o3⟩ := H.obj hx
          obtain ⟨t, t1, t2, t3⟩ := H.obj hy
          have rd : t.dims = .null ∨ x.rank < y.rank ∨ o.dims ≠ .null := by
            rcases c.2 with r | r | r
            · exact .inl ((sizes_null t2).1 (t3.trans r))
            · exact .inr (.inl r)
            · exact .inr (.inr fun e => r (o3.symm.trans ((sizes_null o2).2 e)))
          obtain ⟨h', o', e, so, _, d1, _, _, a1, _, dp, kd, kb, _, _, nd, nb, sb, nn⟩ :=
            C102_assign_partial o2 t2 (H.apart i j o t c.1 o1 t1) rd
          have e0 : decide (i = j) = false := decide_eq_false c.1
          refine ⟨w.set i h' (some o'), ?_, H.put nn (fun k u hk hu => ⟨fun a ha hlt => ?_, fun a ha hlt => ?_⟩) ?_ ⟨so, d1.trans t3⟩ ?_ ?_ ?_⟩
          · unfold World.step
            simp only [o1, t1, e0, e, Res.bind]
          · exact kd a hlt fun c' => (H.apart i k o u hk.symm o1 hu).1 a c' ha
          · exact kb a hlt fun d c' => (H.apart i k o u hk.symm o1 hu).2.1 d (ha.trans c'.symm)
          · intro a bs ha hlt
            exact kb a hlt fun d c' => by rw [H.owned i o a o1 d c'] at ha; cases ha
          · intro o'' k u ho hk hu
            cases ho
            have ap := H.apart i k o u hk.symm o1 hu
            obtain ⟨z, hz⟩ : ∃ z, vals k = some z := by
              cases hz : vals k with
              | none => rw [H.free hz] at hu; cases hu
              | some z => exact ⟨z, rfl⟩
            obtain ⟨u', u1, u2, _⟩ := H.obj hz
            rw [hu] at u1
            cases u1
            refine ⟨fun a ha c' => ?_, fun d e' => ?_, fun d e' => ?_⟩
            · rcases nd a ha with f | f
              · exact ap.1 a f c'
              · rcases u2.dims with g | ⟨a', _, g1, _, _, g4⟩
                · rw [g] at c'; cases c'
                · rw [g1] at c'; cases c'; omega
            · obtain ⟨a, f1, f2, _⟩ := nb (dp.symm.trans d)
              have := H.below k u a hu (e'.trans f1)
              omega
            · by_cases sd : t.deep = true
              · obtain ⟨a, f1, f2, _⟩ := nb sd
                have := H.below k u a hu (e'.trans f1)
                omega
              · have sd' : t.deep = false := by simpa using sd
                by_cases kj : k = j
                · rw [kj, t1] at hu
                  cases hu
                  exact sd d
                · exact (H.apart j k t u (fun e => kj e.symm) t1 hu).2.2 d (e'.trans (sb sd'))
          · intro o'' a ho d hb
            cases ho
            obtain ⟨a', f1, f2, _⟩ := nb (dp.symm.trans d)
            rw [hb] at f1
            cases f1
            cases hu : user a with
            | none => rfl
            | some bs => have := (H.arrays a bs hu).2; omega
          · intro o'' a ho hb
            cases ho
            by_cases sd : t.deep = true
            · obtain ⟨a', f1, _, f3⟩ := nb sd
              rw [hb] at f1
              cases f1
              exact f3
            · have sd' : t.deep = false := by simpa using sd
              rw [sb sd'] at hb
              exact Nat.lt_of_lt_of_le (H.below j t a t1 hb) nn
        · rw [if_neg c] at hm; cases hm
  | deep i =>
    unfold meaning at hm
    simp only at hm
    cases hx : vals i with
    | none => rw [hx] at hm; cases hm
    | some x =>
      rw [hx, if_neg (fun c => nomatch c)] at hm
      cases hm
      obtain ⟨o, o1, o2, o3⟩ := H.obj hx
      obtain ⟨h', o', e, so, dd, dp, nb, kd, kb, same, zero, nn⟩ := C102_deep o2
      have hv : vals = fun k => if k = i then some x else vals k := by
        funext k
        by_cases c : k = i
        · rw [if_pos c, c, hx]
        · rw [if_neg c]
      have sz : dimsOf h' o' = x.sizes := by
        rw [← o3]
        unfold dimsOf
        rw [dd, so.ndim, o2.ndim, kd]
      -- where the arrays are afterwards
      have wh : o' = o ∨ (o'.boxes = none ∧ o'.deep = false) ∨ ∃ a, o'.boxes = some a ∧ w.heap.next ≤ a := by
        by_cases d : o.deep = true
        · exact .inl (same d)
        · have d' : o.deep = false := by simpa using d
          by_cases z : x.blocks = []
          · exact .inr (.inl (zero d' z))
          · exact .inr (.inr (nb d' z))
      have bel : ∀ a, o'.boxes = some a → a < h'.next := fun a ha => by
        rcases wh with f | ⟨f, _⟩ | ⟨a', f, _⟩
        · rw [f] at ha
          exact Nat.lt_of_lt_of_le (H.below i o a o1 ha) nn
        · rw [f] at ha; cases ha
        · rcases so.boxes with ⟨z, g⟩ | ⟨_, a'', g, _, g3⟩
          · by_cases d : o.deep = true
            · rw [same d] at ha
              exact Nat.lt_of_lt_of_le (H.below i o a o1 ha) nn
            · rw [(zero (by simpa using d) z).1] at ha; cases ha
          · rw [ha] at g; cases g; exact g3
      refine ⟨w.set i h' (some o'), ?_, ?_⟩
      · unfold World.step
        simp only [o1, e, Res.bind]
      · rw [hv]
        refine H.put nn (fun k u hk hu => ⟨fun a _ _ => by rw [kd], fun a ha hlt => kb a hlt⟩) (fun a _ _ hlt => kb a hlt) ⟨so, sz⟩ ?_ ?_ ?_
        · intro o'' k u ho hk hu
          cases ho
          have ap := H.apart i k o u hk.symm o1 hu
          refine ⟨fun a ha => ap.1 a (dd.symm.trans ha), fun d e' => ?_, fun d e' => ?_⟩
          · rcases wh with f | ⟨_, f⟩ | ⟨a, f1, f2⟩
            · rw [f] at d e'; exact ap.2.1 d e'
            · rw [f] at d; cases d
            · have := H.below k u a hu (e'.trans f1); omega
          · rcases wh with f | ⟨f, _⟩ | ⟨a, f1, f2⟩
            · rw [f] at e'; exact ap.2.2 d e'
            · obtain ⟨z, hz⟩ : ∃ z, vals k = some z := by
                cases hz : vals k with
                | none => rw [H.free hz] at hu; cases hu
                | some z => exact ⟨z, rfl⟩
              obtain ⟨u', u1, u2, _⟩ := H.obj hz
              rw [hu] at u1
              cases u1
              obtain ⟨a, ha⟩ := deep_some u2 d
              rw [ha, f] at e'
              cases e'
            · have := H.below k u a hu (e'.trans f1); omega
        · intro o'' a ho d hb
          cases ho
          rcases wh with f | ⟨f, _⟩ | ⟨a', f1, f2⟩
          · rw [f] at d hb; exact H.owned i o a o1 d hb
          · rw [f] at hb; cases hb
          · rw [hb] at f1
            cases f1
            cases hu : user a with
            | none => rfl
            | some bs => have := (H.arrays a bs hu).2; omega
        · intro o'' a ho hb
          cases ho
          exact bel a hb
  | destroy i =>
    unfold meaning at hm
    simp only at hm
    cases hx : vals i with
    | none => rw [hx] at hm; cases hm
    | some x =>
      rw [hx, if_neg (fun c => nomatch c)] at hm
      cases hm
      obtain ⟨o, o1, o2, o3⟩ := H.obj hx
      obtain ⟨h', e, kd, kb, nn⟩ : ∃ h', destroy w.heap o = .ok h' ∧ (∀ a, o.dims ≠ .at a → h'.dims a = w.heap.dims a) ∧
          (∀ a, (o.deep = true → o.boxes ≠ some a) → h'.boxes a = w.heap.boxes a) ∧ h'.next = w.heap.next := by
        have sn : Sound w.heap ⟨some 0, 0, .null, none, false⟩ 0 [] :=
          ⟨rfl, .inl rfl, fun b hb => absurd hb List.not_mem_nil, rfl, .inl ⟨rfl, rfl⟩⟩
        have ap : Apart o ⟨some 0, 0, .null, none, false⟩ :=
          ⟨fun _ _ c => (nomatch c), fun d e => (by obtain ⟨a, ha⟩ := deep_some o2 d; rw [ha] at e; cases e), fun c => (nomatch c)⟩
        obtain ⟨h', e, _, _, _, _, f1, f2, f3⟩ := C102_destroy o2 sn ap
        exact ⟨h', e, f1, f2, f3⟩
      refine ⟨w.set i h' none, ?_, H.put (by omega) (fun k u hk hu => ⟨fun a ha _ => ?_, fun a ha _ => ?_⟩) ?_ trivial ?_ ?_ ?_⟩
      · unfold World.step
        simp only [o1, e, Res.bind]
      · exact kd a fun c' => (H.apart i k o u hk.symm o1 hu).1 a c' ha
      · exact kb a fun d c' => (H.apart i k o u hk.symm o1 hu).2.1 d (ha.trans c'.symm)
      · intro a bs ha _
        exact kb a fun d c' => by rw [H.owned i o a o1 d c'] at ha; cases ha
      · intro o' k t ho; cases ho
      · intro o' a ho; cases ho
      · intro o' a ho; cases ho

theorem ValKept.run {user : Nat → Option (List Box)} : ∀ {ss : List Stmt} {w : World} {vals vals' : Nat → Option Val}, ValKept user w vals →
    meanings user vals ss = some vals' → ∃ w', w.run ss = .ok w' ∧ ValKept user w' vals'
  | [], w, vals, vals', H, h => by
    cases h
    exact ⟨w, rfl, H⟩
  | s :: ss, w, vals, vals', H, h => by
    unfold meanings at h
    cases hm : meaning user vals s with
    | none => rw [hm] at h; cases h
    | some v1 =>
      rw [hm] at h
      obtain ⟨w1, e1, H1⟩ := H.step hm
      obtain ⟨w2, e2, H2⟩ := H1.run h
      refine ⟨w2, ?_, H2⟩
      unfold World.run
      rw [e1]
      exact e2

/-- **C102 (programs).** Selections behave as values: every program that makes, assigns, converts and destroys selections runs without
undefined behaviour, and afterwards every variable has the rank, the dimension sizes and the blocks that it has if selections are
values; the arrays of the application stay what they were.  Missing from the full statement: the copy constructor, objects assigned to
themselves and sizes assigned to objects of at least the same rank without any (see the violated theorems). -/
theorem C102_programs_partial {h : Heap} {ss : List Stmt} {vals : Nat → Option Val} (hb : ∀ a bs, h.boxes a = some bs → a < h.next)
    (hm : meanings h.boxes (fun _ => none) ss = some vals) :
    ∃ w, World.run ⟨h, fun _ => none⟩ ss = .ok w ∧ (∀ i, Shows w.heap (w.vars i) (vals i)) ∧
      (∀ i x o, vals i = some x → w.vars i = some o → boxesOf w.heap o = .ok x.blocks) ∧
      (∀ a bs, h.boxes a = some bs → w.heap.boxes a = some bs) := by
  have H0 : ValKept h.boxes ⟨h, fun _ => none⟩ (fun _ => none) :=
    ⟨fun _ => trivial, fun _ _ _ _ _ c => (nomatch c), fun a bs e => ⟨e, hb a bs e⟩, fun _ _ _ c => (nomatch c), fun _ _ _ c => (nomatch c)⟩
  obtain ⟨w, e, H⟩ := H0.run hm
  refine ⟨w, e, H.shown, fun i x o hx ho => ?_, fun a bs ha => (H.arrays a bs ha).1⟩
  obtain ⟨o', o1, o2, _⟩ := H.obj hx
  rw [ho] at o1
  cases o1
  exact o2.boxesOf

/-! ### Instances -/

/-- Two variables from the arrays of the application; the first is made deep and assigned to a third and to the second, whose first
content is gone, and destroyed. -/
def exProg : List Stmt :=
  [.make 0 2 (some [4, 6]) 2 (some 3), .make 1 1 (some [9]) 1 (some 4), .make 2 0 none 0 none, .deep 0, .assign 2 0, .assign 1 2, .destroy 0]

example : ((meanings exHeap.boxes (fun _ => none) exProg).map fun v => [v 0, v 1, v 2]) =
    some [none, some ⟨2, some [4, 6], [([0, 1], [2, 2]), ([2, 0], [1, 3])]⟩, some ⟨2, some [4, 6], [([0, 1], [2, 2]), ([2, 0], [1, 3])]⟩] := by
  decide

example : ∃ w, World.run ⟨exHeap, fun _ => none⟩ exProg = .ok w := by
  cases h : meanings exHeap.boxes (fun _ => none) exProg with
  | none => exact absurd h (by decide)
  | some v =>
    obtain ⟨w, e, _⟩ := C102_programs_partial (fun a bs hb => by
      show a < 5
      by_cases c3 : a = 3
      · omega
      · by_cases c4 : a = 4
        · omega
        · have : exHeap.boxes a = none := by simp only [exHeap, c3, c4, if_false]
          rw [this] at hb; cases hb) h
    exact ⟨w, e⟩

end Verif.Props
