import Verif.Model.Align
import Verif.Spec.Align
import Verif.Props.Groups
import Verif.Props.Options
import Mathlib.Tactic.Ring

/-
C57: the aligned data layout.
-/

namespace Verif.Props

open Spec (stripePos placed StreamsApart)

/-! ### Placement -/

theorem placed_append (f : Nat → Nat) (i : Nat) (xs ys : List Byte) :
    placed f i (xs ++ ys) = placed f i xs ++ placed f (i + xs.length) ys := by
  induction xs generalizing i with
  | nil => simp [placed]
  | cons x xs ih => simp [placed, ih, Nat.add_comm 1, Nat.add_assoc]

theorem placed_congr {f g : Nat → Nat} {i : Nat} {xs : List Byte} (h : ∀ k < xs.length, f (i + k) = g (i + k)) :
    placed f i xs = placed g i xs := by
  induction xs generalizing i with
  | nil => rfl
  | cons x xs ih =>
    have h0 : f i = g i := h 0 (by simp)
    simp only [placed, h0]
    rw [ih (i := i + 1)]
    intro k hk
    have := h (k + 1) (by simp; omega)
    rwa [show i + (k + 1) = i + 1 + k by omega] at this

theorem placed_length (f : Nat → Nat) (i : Nat) (xs : List Byte) : (placed f i xs).length = xs.length := by
  induction xs generalizing i with
  | nil => rfl
  | cons x xs ih => simp [placed, ih]

theorem placed_getElem (f : Nat → Nat) (i : Nat) (xs : List Byte) (k : Nat) (h : k < xs.length) :
    (placed f i xs)[k]'(by rw [placed_length]; exact h) = (f (i + k), xs[k]) := by
  induction xs generalizing i k with
  | nil => simp at h
  | cons x xs ih =>
    cases k with
    | zero => simp [placed]
    | succ k =>
      simp only [placed, List.getElem_cons_succ]
      rw [ih (i + 1) k (by simpa using h)]
      simp only [Prod.mk.injEq, and_true]
      congr 1; omega

theorem ostPut_eq (pos : Nat) (xs : List Byte) (d : Nat) : ostPut pos xs = placed (fun i => pos + (i - d)) d xs := by
  induction xs generalizing pos d with
  | nil => rfl
  | cons x xs ih =>
    simp only [ostPut, placed, Nat.sub_self, Nat.add_zero]
    rw [ih (pos + 1) (d + 1)]
    congr 1
    refine placed_congr fun k hk => ?_
    show pos + 1 + (d + 1 + k - (d + 1)) = pos + (d + 1 + k - d)
    omega

/-- Where the code puts byte `i` of a process whose stream begins at `off`. -/
def ostPos (ssize scount target doff off i : Nat) : Nat :=
  doff + ssize * target + off / ssize * (ssize * scount) + (off % ssize + i) +
    (off % ssize + i) / ssize * (ssize * scount)

/-- The state of the loop after the bytes `done`. -/
def OstInv (ssize scount target doff off : Nat) (st : OstSt) (done : List Byte) : Prop :=
  ∃ k, off % ssize + done.length = k * ssize + (st.skip + st.cur.length) ∧ st.skip + st.cur.length < ssize ∧
    st.pos + st.cur.length = doff + ssize * target + off / ssize * (ssize * scount) + (off % ssize + done.length) +
      k * (ssize * scount) ∧
    st.out ++ ostPut st.pos st.cur = placed (ostPos ssize scount target doff off) 0 done

/-- Bytes that fit in the stripe. -/
theorem ost_fit {ssize scount target doff off : Nat} {st : OstSt} {done xs : List Byte}
    {k : Nat} (h1 : off % ssize + done.length = k * ssize + (st.skip + st.cur.length))
    (h3 : st.pos + st.cur.length = doff + ssize * target + off / ssize * (ssize * scount) + (off % ssize + done.length) +
      k * (ssize * scount))
    (h4 : st.out ++ ostPut st.pos st.cur = placed (ostPos ssize scount target doff off) 0 done)
    (hx : st.skip + st.cur.length + xs.length ≤ ssize) :
    st.out ++ ostPut st.pos (st.cur ++ xs) = placed (ostPos ssize scount target doff off) 0 (done ++ xs) := by
  have e : ostPut st.pos (st.cur ++ xs) = ostPut st.pos st.cur ++ ostPut (st.pos + st.cur.length) xs := by
    rw [ostPut_eq st.pos (st.cur ++ xs) 0, ostPut_eq st.pos st.cur 0, placed_append,
      ostPut_eq (st.pos + st.cur.length) xs (0 + st.cur.length)]
    congr 1
    refine placed_congr fun i _ => ?_
    show st.pos + (0 + st.cur.length + i - 0) = st.pos + st.cur.length + (0 + st.cur.length + i - (0 + st.cur.length))
    omega
  rw [e, ← List.append_assoc, h4, placed_append]
  congr 1
  rw [ostPut_eq _ xs (0 + done.length)]
  refine placed_congr fun i hi => ?_
  show st.pos + st.cur.length + (0 + done.length + i - (0 + done.length)) = ostPos ssize scount target doff off (0 + done.length + i)
  unfold ostPos
  have hk : (off % ssize + (0 + done.length + i)) / ssize = k := by
    rw [show off % ssize + (0 + done.length + i) = (st.skip + st.cur.length + i) + ssize * k by
      rw [Nat.mul_comm ssize k]; omega, Nat.add_mul_div_left _ _ (by omega), Nat.div_eq_of_lt (by omega)]
    omega
  rw [hk]
  omega

theorem ostLoop_inv {ssize scount target doff off : Nat} : ∀ (f : Nat) (st : OstSt) (done xs : List Byte),
    OstInv ssize scount target doff off st done → xs.length ≤ f →
    OstInv ssize scount target doff off (ostLoop ssize (ssize * scount) f st xs) (done ++ xs)
  | 0, st, done, [], h, _ => by simpa [ostLoop] using h
  | 0, st, done, x :: xs, h, hf => by simp at hf
  | f + 1, st, done, [], h, _ => by simpa [ostLoop] using h
  | f + 1, st, done, b :: bs, ⟨k, h1, h2, h3, h4⟩, hf => by
    simp only [ostLoop]
    obtain ⟨xs, hxs⟩ : ∃ xs, xs = b :: bs := ⟨_, rfl⟩
    rw [← hxs] at hf ⊢
    split
    · rename_i hfree
      obtain ⟨free, hfr⟩ : ∃ free, free = ssize - (st.skip + st.cur.length) := ⟨_, rfl⟩
      rw [← hfr] at hfree ⊢
      have hl : (xs.take free).length = free := by rw [List.length_take]; omega
      have hd : done ++ xs = (done ++ xs.take free) ++ xs.drop free := by
        rw [List.append_assoc, List.take_append_drop]
      rw [hd]
      refine ostLoop_inv f _ _ _ ⟨k + 1, ?_, ?_, ?_, ?_⟩ ?_
      · simp only [List.length_append, List.length_nil, hl]
        rw [Nat.add_mul]; omega
      · simp only [List.length_nil]; omega
      · simp only [List.length_append, List.length_nil, hl]
        rw [Nat.add_mul]; omega
      · simp only [ostPut, List.append_nil]
        exact ost_fit h1 h3 h4 (by rw [hl]; omega)
      · rw [List.length_drop]; omega
    · rename_i hfree
      refine ⟨k, ?_, ?_, ?_, ?_⟩
      · simp only [List.length_append]; omega
      · simp only [List.length_append]; omega
      · simp only [List.length_append]; omega
      · exact ost_fit h1 h3 h4 (by omega)

theorem ost_all {ssize scount target doff off : Nat} : ∀ (bufs : List (List Byte)) (st : OstSt) (done : List Byte),
    OstInv ssize scount target doff off st done →
    OstInv ssize scount target doff off
      (bufs.foldl (fun st b => ostLoop ssize (ssize * scount) b.length st b) st) (done ++ bufs.flatten)
  | [], st, done, h => by simpa using h
  | b :: bs, st, done, h => by
    rw [List.foldl_cons, List.flatten_cons, ← List.append_assoc]
    exact ost_all bs _ _ (ostLoop_inv _ _ _ _ h (Nat.le_refl _))

/-- The positions of all bytes, for every layout and every list of buffers. -/
theorem ostWrite_eq {ssize : Nat} (hs : 0 < ssize) (scount target doff off : Nat) (bufs : List (List Byte)) :
    ostWrite ssize scount target doff off bufs = .ok (placed (ostPos ssize scount target doff off) 0 bufs.flatten) := by
  unfold ostWrite
  rw [if_neg (by omega)]
  have h0 : OstInv ssize scount target doff off
      ⟨off % ssize, [], doff + ssize * target + (off / ssize) * (ssize * scount) + off % ssize, []⟩ [] := by
    refine ⟨0, ?_, ?_, ?_, ?_⟩
    · simp
    · simpa using Nat.mod_lt off hs
    · simp
    · rfl
  obtain ⟨k, _, _, _, h4⟩ := ost_all bufs _ _ h0
  simp only [List.nil_append] at h4
  rw [← h4]

/-- Distance from the place prescribed by the layout. -/
theorem ostPos_eq {ssize : Nat} (hs : 0 < ssize) (scount target doff off i : Nat) :
    ostPos ssize scount target doff off i =
      stripePos ssize scount target doff (off + i) + (off % ssize + i) / ssize * ssize := by
  have e1 : (off + i) / ssize = off / ssize + (off % ssize + i) / ssize := by
    conv => lhs; rw [← Nat.div_add_mod off ssize, Nat.add_assoc, Nat.add_comm, Nat.add_mul_div_left _ _ hs]
    omega
  have e2 : (off + i) % ssize = (off % ssize + i) % ssize := by
    conv => lhs; rw [← Nat.div_add_mod off ssize, Nat.add_assoc, Nat.mul_add_mod]
  unfold ostPos stripePos
  rw [e1, e2]
  have e3 := Nat.div_add_mod (off % ssize + i) ssize
  obtain ⟨q, hq⟩ : ∃ q, q = (off % ssize + i) / ssize := ⟨_, rfl⟩
  rw [← hq] at e3 ⊢
  have e4 : ((off / ssize + q) * scount + target) * ssize =
      ssize * target + off / ssize * (ssize * scount) + q * (ssize * scount) := by ring
  rw [e4, Nat.mul_comm q ssize]
  omega

/-- C57, placement: data of a process that stays within one stripe is where the layout says. -/
theorem C57_place_partial {ssize : Nat} (hs : 0 < ssize) (scount target doff off : Nat) (bufs : List (List Byte))
    (hfit : off % ssize + bufs.flatten.length ≤ ssize) :
    ostWrite ssize scount target doff off bufs =
      .ok (placed (fun i => stripePos ssize scount target doff (off + i)) 0 bufs.flatten) := by
  rw [ostWrite_eq hs]
  congr 1
  refine placed_congr fun i hi => ?_
  show ostPos ssize scount target doff off (0 + i) = stripePos ssize scount target doff (off + (0 + i))
  rw [ostPos_eq hs, Nat.div_eq_of_lt (by omega)]
  omega

example : ostWrite 4 2 1 100 6 [[7], [8]] = .ok [(114, 7), (115, 8)] := by decide +kernel

/-- C57 is violated: every byte after the first stripe boundary of a process is written at another place than the layout says, one
stripe further for each boundary, because the seek to the next stripe begins at the end of the current one. -/
theorem C57_place_violated {ssize : Nat} (hs : 0 < ssize) (scount target doff off : Nat) (bufs : List (List Byte)) :
    ∃ out, ostWrite ssize scount target doff off bufs = .ok out ∧ out.map Prod.snd = bufs.flatten ∧
      ∀ i (hi : i < out.length), ssize ≤ off % ssize + i →
        (out[i]).1 ≠ stripePos ssize scount target doff (off + i) := by
  refine ⟨_, ostWrite_eq hs .., ?_, ?_⟩
  · have : ∀ (f : Nat → Nat) (l : List Byte) (i : Nat), (placed f i l).map Prod.snd = l := by
      intro f l
      induction l with
      | nil => intro i; rfl
      | cons x l ih => intro i; simp [placed, ih]
    exact this _ _ _
  · intro i hi h
    rw [placed_length] at hi
    rw [placed_getElem _ _ _ _ hi]
    show ostPos ssize scount target doff off (0 + i) ≠ _
    rw [Nat.zero_add, ostPos_eq hs]
    have : 1 ≤ (off % ssize + i) / ssize := (Nat.le_div_iff_mul_le hs).mpr (by omega)
    have h2 : 1 * ssize ≤ (off % ssize + i) / ssize * ssize := Nat.mul_le_mul_right _ this
    omega

/-- A write of two stripes on the first of two targets: the second stripe is put on the other target, and over the data of a process
there whose stream begins with its second stripe. -/
example : ostWrite 2 2 0 100 0 [[1, 2, 3]] = .ok [(100, 1), (101, 2), (106, 3)] ∧
    ostWrite 2 2 1 100 2 [[9]] = .ok [(106, 9)] ∧ stripePos 2 2 0 100 2 = 104 := by decide +kernel

/-- C57 is violated: processes on different targets overwrite each other, though their streams lie apart. -/
theorem C57_collide_violated : ∃ out out' : List (Nat × Byte),
    ostWrite 2 2 0 100 0 [[1, 2, 3]] = .ok out ∧ ostWrite 2 2 1 100 2 [[9]] = .ok out' ∧
    (∃ p a b, (p, a) ∈ out ∧ (p, b) ∈ out' ∧ a ≠ b) :=
  ⟨[(100, 1), (101, 2), (106, 3)], [(106, 9)], by decide +kernel, by decide +kernel, 106, 3, 9, by decide, by decide, by decide⟩

/-- C57 is violated: data is written past the end of the log dataset. -/
theorem C57_bounds_violated : ∃ out : List (Nat × Byte),
    ostWrite 2 1 0 (alignAddr 2 6 100) 0 [[1, 2, 3, 4, 5, 6]] = .ok out ∧
    ∃ p ∈ out, 100 + alignSize 2 1 6 ≤ p.1 :=
  ⟨[(100, 1), (101, 2), (104, 3), (105, 4), (108, 5), (109, 6)], by decide +kernel, (109, 6), by decide, by decide⟩

/-- C57 is violated: whenever the size of the data is a multiple of the stripe size, the data is not moved to a stripe boundary. -/
theorem C57_align_violated {ssize dsize addr : Nat} (h : dsize % ssize = 0) (ha : addr % ssize ≠ 0) :
    alignAddr ssize dsize addr % ssize ≠ 0 := by
  unfold alignAddr
  rw [if_pos h]
  exact ha

example : alignAddr 4 8 101 % 4 = 1 := by decide

/-- C57: the data begins at a stripe boundary exactly if the address of the dataset and the size of the data have the same
remainder: the code pads by the remainder of the size instead of that of the address. -/
theorem C57_aligned_partial {ssize : Nat} (hs : 0 < ssize) (dsize addr : Nat) :
    alignAddr ssize dsize addr % ssize = 0 ↔ addr % ssize = dsize % ssize := by
  unfold alignAddr
  have h1 : dsize % ssize < ssize := Nat.mod_lt _ hs
  have h2 : addr % ssize < ssize := Nat.mod_lt _ hs
  by_cases h : dsize % ssize = 0
  · rw [if_pos h, h]
  · rw [if_neg h]
    have e : (addr + (ssize - dsize % ssize)) % ssize = (addr % ssize + (ssize - dsize % ssize)) % ssize := by
      rw [Nat.mod_add_mod]
    rw [e]
    by_cases hlt : addr % ssize < dsize % ssize
    · rw [Nat.mod_eq_of_lt (by omega)]
      omega
    · rw [Nat.mod_eq_sub_mod (by omega), Nat.mod_eq_of_lt (by omega)]
      omega

example : alignAddr 4 6 102 % 4 = 0 ∧ alignAddr 4 6 101 % 4 = 3 := by decide

/-- C57: the dataset has room for all stripes of the layout, wherever HDF5 puts it. -/
theorem C57_room_partial {ssize scount target dsize n : Nat} (hs : 0 < ssize) (ht : target < scount) (hn : n < dsize)
    (addr : Nat) : addr ≤ stripePos ssize scount target (alignAddr ssize dsize addr) n ∧
      stripePos ssize scount target (alignAddr ssize dsize addr) n < addr + alignSize ssize scount dsize := by
  have hmod : dsize % ssize < ssize := Nat.mod_lt _ hs
  have hA : addr ≤ alignAddr ssize dsize addr ∧ alignAddr ssize dsize addr ≤ addr + ssize := by
    unfold alignAddr
    split <;> omega
  obtain ⟨u, hu, hle⟩ : ∃ u, alignSize ssize scount dsize = u * ssize * scount + ssize ∧ dsize ≤ u * ssize := by
    have hd := Nat.div_add_mod dsize ssize
    rw [Nat.mul_comm] at hd
    unfold alignSize
    by_cases h : dsize % ssize = 0
    · refine ⟨dsize / ssize, ?_, by omega⟩
      rw [if_pos h]
      congr 2
      omega
    · refine ⟨dsize / ssize + 1, ?_, ?_⟩
      · have e : dsize + (ssize - dsize % ssize) = (dsize / ssize + 1) * ssize := by
          rw [Nat.add_mul]
          omega
        rw [if_neg h, e]
      · rw [Nat.add_mul]
        omega
  have hq : n / ssize < u := (Nat.div_lt_iff_lt_mul hs).mpr (by omega)
  have hr : n % ssize < ssize := Nat.mod_lt _ hs
  have hb : (n / ssize * scount + target + 1) * ssize ≤ u * ssize * scount := by
    rw [Nat.mul_right_comm]
    refine Nat.mul_le_mul_right _ ?_
    have : (n / ssize + 1) * scount ≤ u * scount := Nat.mul_le_mul_right _ hq
    rw [Nat.add_mul] at this
    omega
  rw [Nat.add_mul, Nat.one_mul] at hb
  unfold stripePos
  rw [hu]
  constructor <;> omega

example : stripePos 2 2 1 (alignAddr 2 3 100) 2 = 107 ∧ 100 + alignSize 2 2 3 = 110 := by decide

/-! ### Metadata -/

theorem stripePos_ge {ssize scount : Nat} (hc : 0 < scount) (target doff n : Nat) :
    doff + n ≤ stripePos ssize scount target doff n := by
  unfold stripePos
  have h1 : n / ssize * ssize ≤ (n / ssize * scount + target) * ssize := by
    refine Nat.mul_le_mul_right _ (Nat.le_trans ?_ (Nat.le_add_right _ _))
    exact Nat.le_mul_of_pos_right _ hc
  have h2 := Nat.div_add_mod n ssize
  rw [Nat.mul_comm] at h2
  omega

theorem recorded_getElem? (ns : List Nat) (off j : Nat) (h : j < ns.length) :
    (recorded off ns)[j]? = some (off + (ns.take j).sum) := by
  induction ns generalizing off j with
  | nil => simp at h
  | cons n ns ih =>
    cases j with
    | zero => simp [recorded]
    | succ j =>
      simp only [recorded, List.getElem?_cons_succ, List.take_succ_cons, List.sum_cons]
      rw [ih (off + n) j (by simpa using h)]
      congr 1; omega

theorem take_flatten_length (l : List (List Byte)) (j : Nat) : (l.take j).flatten.length = ((l.map List.length).take j).sum := by
  rw [List.length_flatten, List.map_take]

/-- C57 is violated: the offset recorded in the metadata is that in the stream; for no request with data, in no run, is it the place
of the data in the file. -/
theorem C57_meta_violated {ssize scount : Nat} (hs : 0 < ssize) (hc : 0 < scount) (target off : Nat) {doff : Nat} (hd : 0 < doff)
    (reqs : List (List Byte)) (j : Nat) (hj : j < reqs.length) (hne : reqs[j] ≠ []) :
    ∃ out i, ∃ hi : i < out.length, ostWrite ssize scount target doff off reqs = .ok out ∧
      i = (reqs.take j).flatten.length ∧ some (out[i]).2 = reqs[j].head? ∧
      (recorded off (reqs.map List.length))[j]? ≠ some (out[i]).1 := by
  obtain ⟨x, xs, hx⟩ := List.exists_cons_of_ne_nil hne
  have hsplit : reqs = reqs.take j ++ (x :: xs) :: reqs.drop (j + 1) := by
    conv => lhs; rw [← List.take_append_drop j reqs, List.drop_eq_getElem_cons hj, hx]
  have hfl : reqs.flatten = (reqs.take j).flatten ++ (x :: (xs ++ (reqs.drop (j + 1)).flatten)) := by
    conv => lhs; rw [hsplit]
    simp
  have hlt : (reqs.take j).flatten.length < reqs.flatten.length := by
    rw [hfl]; simp
  refine ⟨_, (reqs.take j).flatten.length, by rw [placed_length]; exact hlt, ostWrite_eq hs .., rfl, ?_, ?_⟩
  · rw [placed_getElem _ _ _ _ hlt]
    simp only [hx, List.head?_cons, Option.some.injEq]
    rw [List.getElem_of_eq hfl, List.getElem_append_right (by omega)]
    simp
  · rw [placed_getElem _ _ _ _ hlt, recorded_getElem? _ _ _ (by simpa using hj), ← take_flatten_length]
    intro h
    simp only [Option.some.injEq, Nat.zero_add] at h
    have h1 := ostPos_eq hs scount target doff off (reqs.take j).flatten.length
    have h2 := stripePos_ge (ssize := ssize) hc target doff (off + (reqs.take j).flatten.length)
    omega

example : ostWrite 4 2 0 100 1 [[5], [6, 7]] = .ok [(101, 5), (102, 6), (103, 7)] ∧ recorded 1 [1, 2] = [1, 2] := by decide +kernel

/-- C57 is violated: a request with two buffers (merged requests) overruns the arrays. -/
theorem C57_merged_violated {reqs : List (List (List Byte))} (h1 : ∀ r ∈ reqs, r ≠ []) (h2 : ∃ r ∈ reqs, 2 ≤ r.length) :
    gatherBufs reqs = .ub := by
  have key : ∀ l : List (List (List Byte)), (∀ r ∈ l, r ≠ []) → l.length ≤ l.flatten.length := by
    intro l
    induction l with
    | nil => simp
    | cons a l ih =>
      intro h
      have := ih fun r hr => h r (List.mem_cons_of_mem _ hr)
      have := List.length_pos_iff.mpr (h a (List.mem_cons_self ..))
      simp only [List.length_cons, List.flatten_cons, List.length_append]
      omega
  obtain ⟨r, hr, hl⟩ := h2
  obtain ⟨s, t, rfl⟩ := List.append_of_mem hr
  have k1 := key s fun r hr => h1 r (by simp [hr])
  have k2 := key t fun r hr => h1 r (by simp [hr])
  unfold gatherBufs
  rw [if_neg]
  simp only [List.flatten_append, List.flatten_cons, List.length_append, List.length_cons]
  omega

example : gatherBufs [[[1]], [[2], [3]]] = .ub ∧ gatherBufs [[[1]], [[2]]] = .ok [[1], [2]] := by decide

/-! ### Neighbours -/

theorem scanLeader_eq (lead : Nat → Bool) : ∀ (l : List Nat) (j : Nat), scanLeader lead (j + 1) l = (l.filter lead)[j]?
  | [], j => by simp [scanLeader]
  | i :: is, j => by
    simp only [scanLeader]
    by_cases h : lead i = true
    · rw [if_pos h, List.filter_cons_of_pos h]
      cases j with
      | zero => simp
      | succ j =>
        rw [if_neg (by omega), show j + 1 + 1 - 1 = j + 1 from rfl, scanLeader_eq lead is j, List.getElem?_cons_succ]
    · rw [if_neg h, List.filter_cons_of_neg h, scanLeader_eq lead is j]

/-- The previous rank is the first of the group that many groups before. -/
theorem prevRank_iff (color : Nat → Nat) (j r i : Nat) :
    prevRank color (j + 1) r = some i ↔ i < r ∧ groupRank color i = 0 ∧ leaders color i + (j + 1) = leaders color r := by
  unfold prevRank
  rw [scanLeader_eq]
  induction r generalizing j with
  | zero => simp
  | succ r ih =>
    rw [List.range_succ, List.reverse_append, List.reverse_singleton, List.singleton_append, leaders_succ]
    by_cases h : groupRank color r = 0
    · rw [List.filter_cons_of_pos (by simpa using h), if_pos h]
      cases j with
      | zero =>
        simp only [List.getElem?_cons_zero, Option.some.injEq]
        constructor
        · rintro rfl; exact ⟨by omega, h, rfl⟩
        · rintro ⟨h1, h2, h3⟩
          by_cases e : i = r
          · exact e.symm
          · have := leaders_strict color (show i < r by omega) h2
            omega
      | succ j =>
        rw [List.getElem?_cons_succ, ih j]
        constructor
        · rintro ⟨h1, h2, h3⟩; exact ⟨by omega, h2, by omega⟩
        · rintro ⟨h1, h2, h3⟩
          refine ⟨?_, h2, by omega⟩
          by_cases e : i = r
          · subst e; omega
          · omega
    · rw [List.filter_cons_of_neg (by simpa using h), if_neg h, ih j]
      constructor
      · rintro ⟨h1, h2, h3⟩; exact ⟨by omega, h2, by omega⟩
      · rintro ⟨h1, h2, h3⟩
        refine ⟨?_, h2, by omega⟩
        by_cases e : i = r
        · subst e; exact absurd h2 h
        · omega

theorem leaders_drop (color : Nat → Nat) (np : Nat) : ∀ (d i j r : Nat), np - i = d →
    ((((List.range np).drop i).filter (fun i => groupRank color i == 0))[j]? = some r ↔
      i ≤ r ∧ r < np ∧ groupRank color r = 0 ∧ leaders color i + j = leaders color r)
  | 0, i, j, r, hd => by
    rw [List.drop_eq_nil_of_le (by simp; omega)]
    simp
    omega
  | d + 1, i, j, r, hd => by
    have hi : i < np := by omega
    have ih := leaders_drop color np d (i + 1)
    rw [List.drop_eq_getElem_cons (by simpa using hi), List.getElem_range]
    have hl := leaders_succ color i
    by_cases h : groupRank color i = 0
    · rw [List.filter_cons_of_pos (by simpa using h)]
      rw [if_pos h] at hl
      cases j with
      | zero =>
        simp only [List.getElem?_cons_zero, Option.some.injEq, Nat.add_zero]
        constructor
        · rintro rfl; exact ⟨Nat.le_refl _, hi, h, rfl⟩
        · rintro ⟨h1, h2, h3, h4⟩
          rcases Nat.lt_or_eq_of_le h1 with hlt | he
          · have := leaders_strict color hlt h
            omega
          · exact he
      | succ j =>
        rw [List.getElem?_cons_succ, ih j r (by omega), hl]
        constructor
        · rintro ⟨h1, h2, h3, h4⟩; exact ⟨by omega, h2, h3, by omega⟩
        · rintro ⟨h1, h2, h3, h4⟩
          refine ⟨?_, h2, h3, by omega⟩
          rcases Nat.lt_or_eq_of_le h1 with hlt | he
          · omega
          · subst he; omega
    · rw [List.filter_cons_of_neg (by simpa using h), ih j r (by omega), hl, if_neg h]
      constructor
      · rintro ⟨h1, h2, h3, h4⟩; exact ⟨by omega, h2, h3, by omega⟩
      · rintro ⟨h1, h2, h3, h4⟩
        refine ⟨?_, h2, h3, by omega⟩
        rcases Nat.lt_or_eq_of_le h1 with hlt | he
        · omega
        · subst he; exact absurd h3 h

theorem nextRank_iff (color : Nat → Nat) (np j i r : Nat) (hi : groupRank color i = 0) :
    nextRank color np (j + 1) i = some r ↔
      i < r ∧ r < np ∧ groupRank color r = 0 ∧ leaders color i + (j + 1) = leaders color r := by
  unfold nextRank
  rw [scanLeader_eq, leaders_drop color np _ (i + 1) j r rfl, leaders_succ, if_pos hi]
  constructor
  · rintro ⟨h1, h2, h3, h4⟩; exact ⟨by omega, h2, h3, by omega⟩
  · rintro ⟨h1, h2, h3, h4⟩; exact ⟨by omega, h2, h3, by omega⟩

/-- C57: among the ranks that are first in their groups, every receive has its send and every send its receive; sender and receiver
use the same target. -/
theorem C57_neighbours (color : Nat → Nat) (np scount : Nat) (hc : 0 < scount) (i r : Nat) (hi : groupRank color i = 0)
    (hr : groupRank color r = 0) (hn : r < np) :
    (prevRank color scount r = some i ↔ nextRank color np scount i = some r) ∧
    (prevRank color scount r = some i → targetOst color scount i = targetOst color scount r) := by
  obtain ⟨j, rfl⟩ : ∃ j, scount = j + 1 := ⟨scount - 1, by omega⟩
  rw [prevRank_iff, nextRank_iff _ _ _ _ _ hi]
  refine ⟨⟨fun ⟨h1, _, h3⟩ => ⟨h1, hn, hr, h3⟩, fun ⟨h1, _, _, h4⟩ => ⟨h1, hi, h4⟩⟩, ?_⟩
  rintro ⟨h1, _, h3⟩
  unfold targetOst groupId
  rw [root_self hi, root_self hr, ← h3, Nat.add_mod_right]

example : prevRank (fun r => r / 2) 2 4 = some 0 ∧ nextRank (fun r => r / 2) 8 2 0 = some 4 ∧
    targetOst (fun r => r / 2) 2 5 = 0 := by decide +kernel

/-! ### Streams -/

theorem group_split (color : Nat → Nat) (size : Nat → Nat) {r np : Nat} (h : r < np) :
    (((List.range r).filter (fun i => color i == color r)).map size).sum + size r ≤ groupMeta color np size (color r) := by
  unfold groupMeta
  have e : List.range np = List.range (r + 1) ++ (List.range np).drop (r + 1) := by
    conv => lhs; rw [← List.take_append_drop (r + 1) (List.range np), List.take_range, Nat.min_eq_left (by omega)]
  rw [e, List.filter_append, List.map_append, List.sum_append, List.range_succ, List.filter_append, List.map_append,
    List.sum_append]
  simp

theorem group_lower (color : Nat → Nat) (size : Nat → Nat) {r s : Nat} (h : r < s) (hc : color r = color s) :
    (((List.range r).filter (fun i => color i == color r)).map size).sum + size r ≤
      (((List.range s).filter (fun i => color i == color s)).map size).sum := by
  have := group_split color size h
  unfold groupMeta at this
  rw [hc] at this ⊢
  exact this

/-- Streams of two ranks, the first in an earlier group or an earlier rank of the same group. -/
theorem streams_apart {color : Nat → Nat} {np scount : Nat} {size : Nat → Nat} (hc : 0 < scount)
    (hg : leaders color np ≤ 2 * scount) {r s : Nat} (hr : r < np) (hs : s < np)
    (ht : targetOst color scount r = targetOst color scount s)
    (h : groupId color r < groupId color s ∨ (color r = color s ∧ r < s)) :
    streamOff color np scount size r + size r ≤ streamOff color np scount size s := by
  rcases h with h | ⟨h, hlt⟩
  · have hid := (C29_groups color np).2.1 s hs
    rw [groupCount_eq _ _ _ hs] at hid
    obtain ⟨j, rfl⟩ : ∃ j, scount = j + 1 := ⟨scount - 1, by omega⟩
    unfold targetOst at ht
    have e : groupId color s = groupId color r + (j + 1) := by
      have h1 := Nat.div_add_mod (groupId color r) (j + 1)
      have h2 := Nat.div_add_mod (groupId color s) (j + 1)
      have h3 : groupId color s / (j + 1) < 2 := by
        rw [Nat.div_lt_iff_lt_mul (by omega)]; omega
      obtain ⟨a, ha⟩ : ∃ a, a = groupId color r / (j + 1) := ⟨_, rfl⟩
      obtain ⟨b, hb⟩ : ∃ b, b = groupId color s / (j + 1) := ⟨_, rfl⟩
      rw [← ha] at h1
      rw [← hb] at h2 h3
      have h4 : a < b := by
        by_contra hcon
        have : (j + 1) * b ≤ (j + 1) * a := Nat.mul_le_mul_left _ (by omega)
        omega
      obtain rfl : a = 0 := by omega
      obtain rfl : b = 1 := by omega
      omega
    have hp : prevRank color (j + 1) (groupRoot color s) = some (groupRoot color r) := by
      rw [prevRank_iff]
      refine ⟨?_, root_leader color r, e.symm⟩
      by_contra hcon
      have := leaders_mono color (Nat.le_of_not_lt hcon)
      unfold groupId at h
      omega
    have hn : prevRank color (j + 1) (groupRoot color r) = none := by
      rw [Option.eq_none_iff_forall_not_mem]
      intro i hi
      have := (prevRank_iff color j _ i).mp hi
      have h1 : groupId color r = leaders color (groupRoot color r) := rfl
      omega
    unfold streamOff nodeBase
    rw [hp, hn]
    simp only [root_color]
    have := group_split color size hr
    omega
  · unfold streamOff
    rw [root_eq h]
    have := group_lower color size hlt h
    omega

/-- C57, streams: with at most two groups for each target, the data of different processes lies apart in the stream of the target. -/
theorem C57_streams_partial {color : Nat → Nat} {np scount : Nat} (size : Nat → Nat) (hc : 0 < scount)
    (hg : leaders color np ≤ 2 * scount) {r s : Nat} (hr : r < np) (hs : s < np) (hne : r ≠ s)
    (ht : targetOst color scount r = targetOst color scount s) :
    StreamsApart (streamOff color np scount size r) (size r) (streamOff color np scount size s) (size s) := by
  have key : streamOff color np scount size r + size r ≤ streamOff color np scount size s ∨
      streamOff color np scount size s + size s ≤ streamOff color np scount size r := by
    rcases Nat.lt_trichotomy (groupId color r) (groupId color s) with h | h | h
    · exact .inl (streams_apart hc hg hr hs ht (.inl h))
    · have hcol := ((C29_groups color np).2.2.1 r hr s hs).mp h
      rcases Nat.lt_or_gt_of_ne hne with hl | hl
      · exact .inl (streams_apart hc hg hr hs ht (.inr ⟨hcol, hl⟩))
      · exact .inr (streams_apart hc hg hs hr ht.symm (.inr ⟨hcol.symm, hl⟩))
    · exact .inr (streams_apart hc hg hs hr ht.symm (.inl h))
  intro x hx
  omega

example : leaders (fun r => r / 2) 8 ≤ 2 * 2 ∧ targetOst (fun r => r / 2) 2 1 = targetOst (fun r => r / 2) 2 5 ∧
    streamOff (fun r => r / 2) 8 2 (fun r => r + 1) 1 = 1 ∧ streamOff (fun r => r / 2) 8 2 (fun r => r + 1) 5 = 8 := by
  decide +kernel

/-- C57 is violated: with three groups on a target, the third begins after as many bytes as the second has; if all processes write
the same number of bytes, the second and the third write at the same place. -/
theorem C57_streams_violated (n : Nat) :
    streamOff (fun r => r) 3 1 (fun _ => n) 1 = streamOff (fun r => r) 3 1 (fun _ => n) 2 ∧
    targetOst (fun r => r) 1 1 = targetOst (fun r => r) 1 2 ∧
    (0 < n → ¬ StreamsApart (streamOff (fun r => r) 3 1 (fun _ => n) 1) n (streamOff (fun r => r) 3 1 (fun _ => n) 2) n) := by
  have p1 : prevRank (fun r => r) 1 1 = some 0 := by decide +kernel
  have p2 : prevRank (fun r => r) 1 2 = some 1 := by decide +kernel
  have g1 : groupRoot (fun r => r) 1 = 1 := by decide +kernel
  have g2 : groupRoot (fun r => r) 2 = 2 := by decide +kernel
  have l : List.range 3 = [0, 1, 2] := rfl
  have l2 : List.range 2 = [0, 1] := rfl
  have e1 : streamOff (fun r => r) 3 1 (fun _ => n) 1 = n := by
    simp [streamOff, nodeBase, g1, p1, groupMeta, l]
  have e2 : streamOff (fun r => r) 3 1 (fun _ => n) 2 = n := by
    simp [streamOff, nodeBase, g2, p2, groupMeta, l, l2]
  refine ⟨e1.trans e2.symm, by decide +kernel, fun hn h => ?_⟩
  rw [e1, e2] at h
  exact h n ⟨⟨Nat.le_refl _, by omega⟩, Nat.le_refl _, by omega⟩

/-! ### Creation -/

theorem bind_eq_ok {α β : Type} {x : Res α} {f : α → Res β} {b : β} (h : x.bind f = .ok b) : ∃ a, x = .ok a ∧ f a = .ok b := by
  cases x with
  | ok a => exact ⟨a, rfl, h⟩
  | err => simp [Res.bind] at h
  | ub => simp [Res.bind] at h

/-- C57 is violated: no file can be created with the aligned layout, because the stripe parameters are taken from a file handle that
has not been opened. -/
theorem C57_create_violated {e : Env} {fapl fcpl : PList} {f : FileOpts} (h : createOpts e fapl fcpl = .ok f) :
    (postCreateFh f = .ub ↔ f.align = true) ∧
    (∀ s, e.var .layout = some s → s ≠ "align" → postCreateFh f = .ub) := by
  have key : postCreateFh f = .ub ↔ f.align = true := by
    unfold postCreateFh stripInfo
    cases f.align <;> simp [Res.bind]
  refine ⟨key, fun s hs hne => key.mpr ?_⟩
  unfold createOpts at h
  obtain ⟨b, _, h⟩ := bind_eq_ok h
  obtain ⟨g, _, h⟩ := bind_eq_ok h
  unfold parseFcpl at h
  obtain ⟨l, _, h⟩ := bind_eq_ok h
  obtain ⟨n, _, h⟩ := bind_eq_ok h
  injection h with h
  rw [← h]
  simp [bitOf, hs, hne]

example : ∃ e f, e.var .layout = some "contig" ∧ createOpts e ⟨.fileAccess, []⟩ ⟨.fileCreate, []⟩ = .ok f ∧
    postCreateFh f = .ub :=
  ⟨⟨fun v => if v = .layout then some "contig" else none, fun _ => 0⟩, _, by simp, rfl, by decide⟩

end Verif.Props
