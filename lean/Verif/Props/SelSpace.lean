import Verif.Model.SelSpace
import Verif.Lemmas.Pairs
import Verif.Lemmas.Order
import Verif.Props.FileEx

/-
C38: passthru reads select the right bytes.
-/

namespace Verif.Props

/-- The bytes of the cells of a block of an array stored row-major from `start0` on, cell after cell. -/
def Spec.cellBytes (start0 esize : Nat) (starts sizes counts : List Nat) : List Nat :=
  (boxIdx counts).flatMap (fun x => (List.range esize).map (fun k => start0 + esize * lin sizes (adds starts x) + k))

/-- The block lies in the array and is not empty. -/
def Spec.Fits : List Nat → List Nat → List Nat → Prop
  | [], [], [] => True
  | s :: ss, n :: ns, c :: cs => 1 ≤ c ∧ s + c ≤ n ∧ Spec.Fits ss ns cs
  | _, _, _ => False

/-- Only the first and the last dimension have more than one index. -/
def Spec.Flat (counts : List Nat) : Prop := ∀ i : Nat, 0 < i → i + 1 < counts.length → counts[i]? = some 1

theorem Spec.Fits.length : ∀ {ss ns cs : List Nat}, Spec.Fits ss ns cs → ss.length = ns.length ∧ cs.length = ns.length
  | [], [], [], _ => ⟨rfl, rfl⟩
  | s :: ss, n :: ns, c :: cs, h => by
    obtain ⟨_, _, h⟩ := h
    have := Spec.Fits.length h
    simp [this.1, this.2]
  | [], [], _ :: _, h => h.elim
  | [], _ :: _, _, h => h.elim
  | _ :: _, [], _, h => h.elim
  | _ :: _, _ :: _, [], h => h.elim

theorem selLoop_eq : ∀ {ss ns : List Nat}, ss.length = ns.length → selLoop ss ns = (lin ns ss, prod ns)
  | [], [], _ => rfl
  | s :: ss, n :: ns, h => by
    have := selLoop_eq (ss := ss) (ns := ns) (by simpa using h)
    unfold selLoop at this ⊢
    rw [List.zip_cons_cons, List.foldr_cons, this]
    simp only [lin, prod_cons, Prod.mk.injEq]
    exact ⟨Nat.add_comm _ _, Nat.mul_comm _ _⟩
  | [], _ :: _, h => by simp at h
  | _ :: _, [], h => by simp at h

theorem lin_adds : ∀ {ns ss xs : List Nat}, ss.length = ns.length → xs.length = ns.length →
    lin ns (adds ss xs) = lin ns ss + lin ns xs
  | [], [], [], _, _ => rfl
  | n :: ns, s :: ss, x :: xs, h1, h2 => by
    have := lin_adds (ns := ns) (ss := ss) (xs := xs) (by simpa using h1) (by simpa using h2)
    simp only [adds, List.zipWith_cons_cons, lin] at this ⊢
    rw [this, Nat.add_mul]
    omega
  | [], _ :: _, _, h, _ => by simp at h
  | [], [], _ :: _, _, h => by simp at h
  | _ :: _, [], _, h, _ => by simp at h
  | _ :: _, _ :: _, [], _, h => by simp at h

theorem lin_bound : ∀ {ss ns cs xs : List Nat}, Spec.Fits ss ns cs → xs ∈ boxIdx cs → lin ns xs < prod ns
  | [], [], [], xs, _, h => by
    simp only [boxIdx, List.mem_singleton] at h
    subst h
    simp [lin]
  | s :: ss, n :: ns, c :: cs, xs, hf, h => by
    obtain ⟨h1, h2, h3⟩ := hf
    simp only [boxIdx, List.mem_flatMap, List.mem_range, List.mem_map] at h
    obtain ⟨a, ha, y, hy, rfl⟩ := h
    have ih := lin_bound h3 hy
    simp only [lin, prod_cons]
    calc a * prod ns + lin ns y < a * prod ns + prod ns := by omega
      _ = (a + 1) * prod ns := by rw [Nat.add_mul]; omega
      _ ≤ n * prod ns := Nat.mul_le_mul_right _ (by omega)
  | [], [], _ :: _, _, h, _ => h.elim
  | [], _ :: _, _, _, h, _ => h.elim
  | _ :: _, [], _, _, h, _ => h.elim
  | _ :: _, _ :: _, [], _, h, _ => h.elim

theorem Spec.Fits.prod_pos : ∀ {ss ns cs : List Nat}, Spec.Fits ss ns cs → 0 < prod ns ∧ 0 < prod cs
  | [], [], [], _ => by simp
  | s :: ss, n :: ns, c :: cs, h => by
    obtain ⟨h1, h2, h3⟩ := h
    have := Spec.Fits.prod_pos h3
    simp only [prod_cons]
    exact ⟨Nat.mul_pos (by omega) this.1, Nat.mul_pos (by omega) this.2⟩
  | [], [], _ :: _, h => h.elim
  | [], _ :: _, _, h => h.elim
  | _ :: _, [], _, h => h.elim
  | _ :: _, _ :: _, [], h => h.elim

theorem prod_append (a b : List Nat) : prod (a ++ b) = prod a * prod b := by
  induction a with
  | nil => simp
  | cons x a ih => rw [List.cons_append, prod_cons, prod_cons, ih, Nat.mul_assoc]

/-- The shapes of counts. -/
theorem flat_cases (cs : List Nat) (h : cs ≠ []) : (∃ c, cs = [c]) ∨ ∃ c ms l, cs = c :: (ms ++ [l]) := by
  cases cs with
  | nil => exact absurd rfl h
  | cons c r =>
    cases hr : r with
    | nil => exact Or.inl ⟨c, rfl⟩
    | cons d t =>
      refine Or.inr ⟨c, r.dropLast, r.getLast (by rw [hr]; simp), ?_⟩
      rw [List.dropLast_concat_getLast, hr]

theorem flat_mids {c l : Nat} {ms : List Nat} (h : Spec.Flat (c :: (ms ++ [l]))) : ∀ m ∈ ms, m = 1 := by
  intro m hm
  obtain ⟨i, hi, rfl⟩ := List.getElem_of_mem hm
  have := h (i + 1) (by omega) (by simp; omega)
  rw [List.getElem?_cons_succ, List.getElem?_append_left hi, List.getElem?_eq_getElem hi] at this
  injection this

theorem boxIdx_ones : ∀ {ms : List Nat}, (∀ m ∈ ms, m = 1) → boxIdx ms = [List.replicate ms.length 0]
  | [], _ => rfl
  | m :: ms, h => by
    have ih := boxIdx_ones (ms := ms) (fun a ha => h a (by simp [ha]))
    have hm : m = 1 := h m (by simp)
    subst hm
    simp [boxIdx, ih, List.replicate_succ]

theorem prod_ones : ∀ {ms : List Nat}, (∀ m ∈ ms, m = 1) → prod ms = 1
  | [], _ => rfl
  | m :: ms, h => by
    have hm : m = 1 := h m (by simp)
    rw [prod_cons, prod_ones (fun a ha => h a (by simp [ha])), hm]

theorem lin_zeros : ∀ {ns : List Nat} (k j : Nat), ns.length = k + 1 → lin ns (List.replicate k 0 ++ [j]) = j
  | [n], 0, j, _ => by simp [lin]
  | n :: ns, k + 1, j, h => by
    have := lin_zeros (ns := ns) k j (by simpa using h)
    rw [List.replicate_succ, List.cons_append, lin, this]
    simp
  | [], _, _, h => by simp at h
  | _ :: _ :: _, 0, _, h => by simp at h

theorem getLast?_cons_append (c l : Nat) (ms : List Nat) : (c :: (ms ++ [l])).getLast? = some l := by
  rw [← List.cons_append, List.getLast?_append]
  rfl

theorem Spec.Fits.last : ∀ {ss ns cs : List Nat} {l : Nat}, Spec.Fits ss ns cs → cs.getLast? = some l → 1 ≤ l ∧ l ≤ prod ns
  | [], [], [], _, _, h => by simp at h
  | [s], [n], [c], l, hf, h => by
    obtain ⟨h1, h2, _⟩ := hf
    simp only [List.getLast?_singleton, Option.some.injEq] at h
    subst h
    simp
    omega
  | s :: t :: ss, n :: m :: ns, c :: d :: cs, l, hf, h => by
    have h' := hf.2.2
    rw [List.getLast?_cons_cons] at h
    have ih := Spec.Fits.last h' h
    refine ⟨ih.1, ?_⟩
    rw [prod_cons]
    have hn : 1 ≤ n := by
      have := hf.1
      have := hf.2.1
      omega
    calc l ≤ prod (m :: ns) := ih.2
      _ = 1 * prod (m :: ns) := (Nat.one_mul _).symm
      _ ≤ n * prod (m :: ns) := Nat.mul_le_mul_right _ hn
  | [], [], _ :: _, _, h, _ => h.elim
  | [], _ :: _, _, _, h, _ => h.elim
  | _ :: _, [], _, _, h, _ => h.elim
  | _ :: _, _ :: _, [], _, h, _ => h.elim
  | [_], [_], _ :: _ :: _, _, h, _ => h.2.2.elim
  | [_], _ :: _ :: _, _ :: _, _, h, _ => by
    obtain ⟨_, _, h⟩ := h
    revert h
    rename_i a b c d e
    cases e <;> exact fun h => h.elim
  | _ :: _ :: _, [_], _ :: _, _, h, _ => h.2.2.elim
  | _ :: _ :: _, _ :: _ :: _, [_], _, h, _ => h.2.2.elim

theorem Spec.Fits.tail_last {s n c l : Nat} {ss ns ms : List Nat} (h : Spec.Fits (s :: ss) (n :: ns) (c :: (ms ++ [l]))) :
    1 ≤ l ∧ l ≤ prod ns := Spec.Fits.last h.2.2 (by rw [List.getLast?_append]; rfl)

/-- **C38, selection (partial).** For every entry shape and every sub-block in which only the first and the last dimension have
more than one index (all blocks of one- and two-dimensional entries), the selected bytes are exactly the bytes of the
requested cells, in order. -/
theorem C38_select_partial {starts sizes counts : List Nat} (start0 esize : Nat) (hf : Spec.Fits starts sizes counts)
    (hne : counts ≠ []) (hflat : Spec.Flat counts) :
    ∃ s, selSpace start0 esize starts sizes counts = .ok s ∧ s.bytes = Spec.cellBytes start0 esize starts sizes counts := by
  obtain ⟨l1, l2⟩ := hf.length
  cases sizes with
  | nil => exact absurd (List.length_eq_zero_iff.mp l2) hne
  | cons n ns =>
  cases starts with
  | nil => simp at l1
  | cons s ss =>
  rcases flat_cases counts hne with ⟨c, rfl⟩ | ⟨c, ms, l, rfl⟩
  · -- one dimension
    have hns : ns = [] := List.length_eq_zero_iff.mp (by simpa using l2.symm)
    have hss : ss = [] := List.length_eq_zero_iff.mp (by rw [hns] at l1; simpa using l1)
    subst hns hss
    obtain ⟨h1, h2, _⟩ := hf
    have hc : prod [c] / c = 1 := by
      simp
      exact Nat.div_self h1
    refine ⟨⟨start0 + (selLoop [s] [n]).1 * esize, 1, 1, c * esize⟩, ?_, ?_⟩
    · unfold selSpace
      simp only [List.getLast?_singleton, List.head?_cons]
      rw [if_neg (by omega), hc, if_neg (by omega)]
      unfold hyperslab
      rw [if_neg (by simp)]
    · unfold HSel.bytes Spec.cellBytes
      rw [selLoop_eq l1, boxIdx_one, List.flatMap_map]
      simp only [List.range_one, List.flatMap_singleton, range_mul, List.map_flatMap, List.map_map]
      apply List.flatMap_congr
      intro j _
      apply List.map_congr_left
      intro k _
      simp only [Function.comp, lin, adds, List.zipWith_cons_cons, List.zipWith_nil_right, prod_nil, Nat.mul_one, Nat.add_zero,
        Nat.mul_add]
      rw [Nat.mul_comm s esize]
      omega
  · have hm := flat_mids hflat
    have htl := hf.tail_last
    have hc : prod (c :: (ms ++ [l])) / l = c := by
      rw [prod_cons, prod_append, prod_ones hm]
      simp only [prod_cons, prod_nil, Nat.mul_one, Nat.one_mul]
      exact Nat.mul_div_cancel _ htl.1
    have hn : 0 < n := by
      have := hf.1
      have := hf.2.1
      omega
    have hst : prod (n :: ns) / n = prod ns := by
      rw [prod_cons]
      exact Nat.mul_div_cancel_left _ hn
    have hcells : Spec.cellBytes start0 esize (s :: ss) (n :: ns) (c :: (ms ++ [l])) =
        (List.range c).flatMap (fun i => (List.range (l * esize)).map
          (fun k => start0 + lin (n :: ns) (s :: ss) * esize + i * (prod ns * esize) + k)) := by
      unfold Spec.cellBytes
      simp only [boxIdx, boxIdx_append, boxIdx_ones hm, List.flatMap_singleton, List.map_map, List.flatMap_assoc,
        List.flatMap_map, range_mul, List.map_flatMap]
      apply List.flatMap_congr
      intro i _
      apply List.flatMap_congr
      intro j _
      apply List.map_congr_left
      intro k _
      have hk : ns.length = ms.length + 1 := by simpa using l2.symm
      simp only [Function.comp]
      have hz : lin (n :: ns) (i :: (List.replicate ms.length 0 ++ [j])) = i * prod ns + j := by
        rw [lin, lin_zeros ms.length j hk]
      rw [lin_adds l1 (by simp [hk]), hz]
      simp only [Nat.mul_add]
      rw [Nat.mul_comm esize (lin _ _), Nat.mul_comm esize (i * _), Nat.mul_assoc]
      omega
    have hb : l * esize ≤ prod ns * esize := Nat.mul_le_mul_right _ htl.2
    by_cases h1 : 1 < c
    · refine ⟨⟨start0 + (selLoop (s :: ss) (n :: ns)).1 * esize, prod ns * esize, c, l * esize⟩, ?_, ?_⟩
      · unfold selSpace
        simp only [getLast?_cons_append, List.head?_cons]
        rw [if_neg (by omega), hc, if_pos h1, if_neg (by omega), hst]
        unfold hyperslab
        rw [if_neg (fun h => absurd h.2 (by simpa using hb))]
      · rw [hcells, selLoop_eq l1]
        rfl
    · have hc1 : c = 1 := by
        have := hf.1
        omega
      refine ⟨⟨start0 + (selLoop (s :: ss) (n :: ns)).1 * esize, 1, c, l * esize⟩, ?_, ?_⟩
      · unfold selSpace
        simp only [getLast?_cons_append, List.head?_cons]
        rw [if_neg (by omega), hc, if_neg h1]
        unfold hyperslab
        rw [if_neg (fun h => h1 h.1)]
      · rw [hcells, selLoop_eq l1, hc1]
        simp only [HSel.bytes, List.range_one, List.flatMap_singleton, Nat.zero_mul]

/-- **C38 is violated.** Whenever a dimension between the first and the last one has more than one index the selection
contains a byte that belongs to no requested cell, for every entry shape. -/
theorem C38_select_violated {starts sizes counts : List Nat} (start0 esize : Nat) (hf : Spec.Fits starts sizes counts)
    (he : 0 < esize) (hflat : ¬ Spec.Flat counts) :
    ∃ s b, selSpace start0 esize starts sizes counts = .ok s ∧
      b ∈ s.bytes ∧ b ∉ Spec.cellBytes start0 esize starts sizes counts := by
  obtain ⟨l1, l2⟩ := hf.length
  have hne : counts ≠ [] := by
    rintro rfl
    exact hflat (fun i _ h => by simp at h)
  cases sizes with
  | nil => exact absurd (List.length_eq_zero_iff.mp l2) hne
  | cons n ns =>
  cases starts with
  | nil => simp at l1
  | cons s ss =>
  rcases flat_cases counts hne with ⟨c, rfl⟩ | ⟨c, ms, l, rfl⟩
  · exact absurd (fun i h1 h2 => by simp at h2) hflat
  · have htl := hf.tail_last
    have hn : 0 < n := by
      have := hf.1
      have := hf.2.1
      omega
    have hst : prod (n :: ns) / n = prod ns := by
      rw [prod_cons]
      exact Nat.mul_div_cancel_left _ hn
    have hc : prod (c :: (ms ++ [l])) / l = c * prod ms := by
      rw [prod_cons, prod_append]
      simp only [prod_cons, prod_nil, Nat.mul_one]
      rw [← Nat.mul_assoc]
      exact Nat.mul_div_cancel _ htl.1
    have hms : 2 ≤ prod ms := by
      refine Decidable.byContradiction fun hlt => hflat ?_
      have hpos : 0 < prod (ms ++ [l]) := hf.2.2.prod_pos.2
      rw [prod_append] at hpos
      have hpm : 0 < prod ms := Nat.pos_of_mul_pos_right hpos
      have h1 : prod ms = 1 := by omega
      have hall : ∀ ms : List Nat, prod ms = 1 → ∀ m ∈ ms, m = 1 := by
        intro ms
        induction ms with
        | nil => exact fun _ m hm => absurd hm (by simp)
        | cons a t ih =>
          intro h m hm
          rw [prod_cons] at h
          have ha := Nat.eq_one_of_mul_eq_one_right h
          have ht := Nat.eq_one_of_mul_eq_one_left h
          rcases List.mem_cons.mp hm with rfl | hm
          · exact ha
          · exact ih ht m hm
      intro i h0 hi
      obtain ⟨j, rfl⟩ : ∃ j, i = j + 1 := ⟨i - 1, by omega⟩
      have hj : j < ms.length := by
        simp at hi
        omega
      rw [List.getElem?_cons_succ, List.getElem?_append_left hj, List.getElem?_eq_getElem hj, hall ms h1 _ (List.getElem_mem hj)]
    have hc1 : 1 ≤ c := hf.1
    have hcm : c + 1 ≤ c * prod ms := by
      calc c + 1 ≤ c * 2 := by omega
        _ ≤ c * prod ms := Nat.mul_le_mul_left _ hms
    have hb : l * esize ≤ prod ns * esize := Nat.mul_le_mul_right _ htl.2
    refine ⟨⟨start0 + (selLoop (s :: ss) (n :: ns)).1 * esize, prod ns * esize, c * prod ms, l * esize⟩,
      start0 + lin (n :: ns) (s :: ss) * esize + c * (prod ns * esize), ?_, ?_, ?_⟩
    · unfold selSpace
      simp only [getLast?_cons_append, List.head?_cons]
      rw [if_neg (by omega), hc, if_pos (by omega), if_neg (by omega), hst]
      unfold hyperslab
      rw [if_neg (fun h => absurd h.2 (by simpa using hb))]
    · rw [selLoop_eq l1]
      simp only [HSel.bytes, List.mem_flatMap, List.mem_range, List.mem_map]
      exact ⟨c, by omega, 0, Nat.mul_pos (by omega) he, by omega⟩
    · unfold Spec.cellBytes
      simp only [List.mem_flatMap, List.mem_map, List.mem_range]
      rintro ⟨x, hx, k, hk, e⟩
      have hxl : x.length = (n :: ns).length := by
        rw [boxIdx_length hx, l2]
      rw [lin_adds l1 hxl] at e
      have hx' := hx
      simp only [boxIdx, List.mem_flatMap, List.mem_range, List.mem_map] at hx'
      obtain ⟨a, ha, y, hy, rfl⟩ := hx'
      have hlt := lin_bound hf.2.2 hy
      have h1 : lin (n :: ns) (a :: y) + 1 ≤ c * prod ns := by
        calc a * prod ns + lin ns y + 1 ≤ a * prod ns + prod ns := by omega
          _ = (a + 1) * prod ns := by rw [Nat.add_mul]; omega
          _ ≤ c * prod ns := Nat.mul_le_mul_right _ (by omega)
      have h2 : esize * lin (n :: ns) (a :: y) + esize ≤ c * (prod ns * esize) := by
        calc esize * lin (n :: ns) (a :: y) + esize = esize * (lin (n :: ns) (a :: y) + 1) := by rw [Nat.mul_add]; omega
          _ ≤ esize * (c * prod ns) := Nat.mul_le_mul_left _ h1
          _ = c * (prod ns * esize) := by rw [Nat.mul_comm, Nat.mul_assoc]
      rw [Nat.mul_add, Nat.mul_comm esize (lin _ (s :: ss))] at e
      omega

theorem zip_map_same {α β γ : Type} (f : α → β) (g : α → γ) (l : List α) :
    (l.map f).zip (l.map g) = l.map (fun a => (f a, g a)) := by
  induction l with
  | nil => rfl
  | cons a l ih => simp [ih]

theorem zip_flatMap_same {α β γ : Type} (f : α → List β) (g : α → List γ) (l : List α) (h : ∀ a ∈ l, (f a).length = (g a).length) :
    (l.flatMap f).zip (l.flatMap g) = l.flatMap (fun a => (f a).zip (g a)) := by
  induction l with
  | nil => rfl
  | cons a l ih =>
    rw [List.flatMap_cons, List.flatMap_cons, List.flatMap_cons, List.zip_append (h a (by simp)),
      ih (fun b hb => h b (by simp [hb]))]

/-- **C38, blocks (partial).** A block read through the under VOL moves the same bytes to the same places as the block read
with an MPI file view, when only its first and last dimension have more than one index and it lies in its log dataset. -/
theorem C38_block_partial {h : Hit} {base ext : Nat} (h0 : h.d.ndim ≠ 0) (hl : h.count.length = h.d.ndim)
    (hd : Spec.Fits h.dstart h.dsize h.count) (hm : Spec.Fits h.mstart h.msize h.count) (hflat : Spec.Flat h.count)
    (hb : (base : Int) ≤ h.key) (hin : h.key + (h.d.esize * prod h.dsize : Nat) ≤ (base + ext : Nat)) :
    passHit base ext h = .ok (hitPairs h) := by
  have hne : h.count ≠ [] := by
    intro e
    rw [e] at hl
    exact h0 (by simpa using hl.symm)
  obtain ⟨f, hfo, hfb⟩ := C38_select_partial (h.key - base).toNat h.d.esize hd hne hflat
  obtain ⟨m, hmo, hmb⟩ := C38_select_partial 0 h.d.esize hm hne hflat
  have hbound : ∀ {ss ns cs x : List Nat} {e k : Nat}, Spec.Fits ss ns cs → x ∈ boxIdx cs → k < e →
      e * lin ns (adds ss x) + k < e * prod ns := by
    intro ss ns cs x e k hfit hx hk
    have : lin ns (adds ss x) < prod ns := by
      have hx' : Spec.inBox (List.replicate ns.length 0) ns (adds ss x) = true := by
        clear hk
        induction ss generalizing ns cs x with
        | nil =>
          cases ns with
          | cons _ _ => exact hfit.elim
          | nil => cases x <;> rfl
        | cons s ss ih =>
          cases ns with
          | nil => exact hfit.elim
          | cons n ns =>
            cases cs with
            | nil => exact hfit.elim
            | cons c cs =>
              simp only [boxIdx, List.mem_flatMap, List.mem_range, List.mem_map] at hx
              obtain ⟨a, ha, y, hy, rfl⟩ := hx
              have := ih hfit.2.2 hy
              have h2 := hfit.2.1
              simp only [adds, List.zipWith_cons_cons, List.length_cons, List.replicate_succ, Spec.inBox, Bool.and_eq_true,
                decide_eq_true_eq] at this ⊢
              exact ⟨⟨by omega, by omega⟩, this⟩
      have := lin_lt hx'
      have hs : ∀ (l : List Nat) (k : Nat), l.length = k → subs l (List.replicate k 0) = l := by
        intro l
        induction l with
        | nil => intro k _; cases k <;> rfl
        | cons a l ih =>
          intro k hk
          cases k with
          | zero => simp at hk
          | succ k =>
            rw [List.replicate_succ]
            simp only [subs, List.zipWith_cons_cons]
            have := ih k (by simpa using hk)
            simp only [subs] at this
            rw [this]
            rfl
      rw [hs _ _ (inBox_length hx').2.symm] at this
      exact this
    calc e * lin ns (adds ss x) + k < e * lin ns (adds ss x) + e := by omega
      _ = e * (lin ns (adds ss x) + 1) := by rw [Nat.mul_add]; omega
      _ ≤ e * prod ns := Nat.mul_le_mul_left _ this
  have hall : (f.bytes.all (fun b => decide (b < ext)) && m.bytes.all (fun b => decide (b < h.d.esize * prod h.msize))) = true := by
    rw [Bool.and_eq_true, List.all_eq_true, List.all_eq_true, hfb, hmb]
    refine ⟨fun b hb' => ?_, fun b hb' => ?_⟩
    · simp only [Spec.cellBytes, List.mem_flatMap, List.mem_map, List.mem_range] at hb'
      obtain ⟨x, hx, k, hk, rfl⟩ := hb'
      have := hbound hd hx hk
      rw [decide_eq_true_eq]
      omega
    · simp only [Spec.cellBytes, List.mem_flatMap, List.mem_map, List.mem_range] at hb'
      obtain ⟨x, hx, k, hk, rfl⟩ := hb'
      have := hbound hm hx hk
      rw [decide_eq_true_eq]
      omega
  unfold passHit
  rw [if_neg h0, hfo, Res.ok_bind, hmo, Res.ok_bind, if_pos hall, hfb, hmb]
  show Res.ok _ = _
  congr 1
  unfold Spec.cellBytes hitPairs elemPairs
  rw [List.map_flatMap, List.map_flatMap, zip_flatMap_same _ _ _ (by intro a _; simp)]
  apply List.flatMap_congr
  intro x _
  rw [List.map_map, List.map_map, zip_map_same]
  apply List.map_congr_left
  intro k _
  simp only [Function.comp, Prod.mk.injEq]
  refine ⟨?_, by omega⟩
  push_cast
  rw [Int.toNat_of_nonneg (by omega)]
  omega

/-! ### Concrete cases -/

def psHit : Hit :=
  { d := { dims := [4, 2, 5], mdims := [some 4, some 2, some 5], esize := 2 }, dsize := [4, 2, 5], dstart := [1, 1, 2],
    msize := [2, 1, 2], mstart := [0, 0, 0], count := [2, 1, 2], xsize := 8, doff := 0, xbuf := 100, foff := 2048, fsize := 80 }

example : Spec.Fits psHit.dstart psHit.dsize psHit.count ∧ Spec.Fits psHit.mstart psHit.msize psHit.count ∧
    Spec.Flat psHit.count := by
  refine ⟨by simp [Spec.Fits, psHit], by simp [Spec.Fits, psHit], ?_⟩
  intro i h1 h2
  have : i = 1 := by
    simp [psHit] at h2
    omega
  subst this
  rfl

example : passHit 2000 200 psHit = .ok (hitPairs psHit) ∧ (hitPairs psHit).length = 8 := by decide +kernel

/-- A block of 2 × 2 × 2 cells. -/
def psBad : Hit := { psHit with dstart := [1, 0, 2], msize := [2, 2, 2], count := [2, 2, 2] }

/-- **C38 is violated, blocks.** Reading a 2 × 2 × 2 block into a larger memory block gives other bytes than requested. -/
theorem C38_block_violated : ∃ ps, passHit 2000 200 { psBad with msize := [4, 2, 2], dstart := [0, 0, 2] } = .ok ps ∧
    ps ≠ hitPairs { psBad with msize := [4, 2, 2], dstart := [0, 0, 2] } ∧ passHit 2000 200 psBad = .err := by
  have h : okWith (fun ps => decide (ps ≠ hitPairs { psBad with msize := [4, 2, 2], dstart := [0, 0, 2] } ∧
      passHit 2000 200 psBad = .err)) (passHit 2000 200 { psBad with msize := [4, 2, 2], dstart := [0, 0, 2] }) = true := by
    decide +kernel
  obtain ⟨ps, e, h⟩ := okWith_iff h
  exact ⟨ps, e, of_decide_eq_true h⟩

end Verif.Props
