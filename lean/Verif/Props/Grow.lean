import Verif.Spec.Grow

/-
C100: compression and decompression into buffers that grow.
-/

namespace Verif.Props

open _root_.Verif.Spec (Filled Inverse)

theorem putAt_length {blk : List (Option Byte)} {p : Nat} {xs : List Byte} (h : p + xs.length ≤ blk.length) :
    (putAt blk p xs).length = blk.length := by
  unfold putAt
  simp only [List.length_append, List.length_take, List.length_map, List.length_drop]
  omega

theorem putAt_take {blk : List (Option Byte)} {all : List Byte} {k n : Nat} (hk : k + n ≤ blk.length)
    (hb : blk.take k = (all.take k).map some) (hn : k + n ≤ all.length) :
    (putAt blk k ((all.drop k).take n)).take (k + n) = (all.take (k + n)).map some := by
  have hl : ((all.drop k).take n).length = n := by simp; omega
  unfold putAt
  rw [List.take_append_of_le_length (by simp; omega), List.take_of_length_le (by simp; omega), hb, ← List.map_append, List.take_add]

/-- The loop for a stream that ends: invariant, result and size. -/
theorem growLoop_good {all : List Byte} {late : Nat → Bool} (hall : all.length < 2 ^ 30) :
    ∀ (fuel i k : Nat) (blk : List (Option Byte)), k ≤ blk.length → k ≤ all.length → 0 < blk.length →
      blk.take k = (all.take k).map some → all.length < blk.length * 2 ^ fuel →
      ∃ r, growLoop all true late (fuel + 1) i k k blk = .ok r ∧ Filled r all ∧ r.1.length ≤ max blk.length (2 * all.length) ∧
        all.length ≤ r.1.length
  | fuel, i, k, blk, h1, h2, h0, h3, h4 => by
    have hxl : ((all.drop k).take (blk.length - k)).length = min (blk.length - k) (all.length - k) := by simp
    have hpl : (putAt blk k ((all.drop k).take (blk.length - k))).length = blk.length := putAt_length (by rw [hxl]; omega)
    rw [growLoop]
    simp only [true_and]
    by_cases c : k + ((all.drop k).take (blk.length - k)).length = all.length ∧
        (((all.drop k).take (blk.length - k)).length < blk.length - k ∨ late i = false)
    · rw [if_pos c]
      obtain ⟨c1, _⟩ := c
      rw [hxl] at c1
      have e : (all.drop k).take (blk.length - k) = (all.drop k).take (all.length - k) := by
        rw [List.take_of_length_le (by simp; omega), List.take_of_length_le (by simp)]
      refine ⟨_, rfl, ⟨?_, ?_⟩, ?_, ?_⟩
      · show k + _ = _
        rw [hxl]; exact c1
      · show (putAt _ _ _).take (k + _) = _
        rw [hxl, c1, e]
        have := putAt_take (n := all.length - k) (blk := blk) (all := all) (k := k) (by omega) h3 (by omega)
        rw [show k + (all.length - k) = all.length by omega, List.take_length] at this
        exact this
      · show (putAt _ _ _).length ≤ _
        rw [hpl]; omega
      · show _ ≤ (putAt _ _ _).length
        rw [hpl]; omega
    · rw [if_neg c]
      have hfull : blk.length ≤ all.length := by
        by_contra hc
        apply c
        rw [hxl]
        omega
      have hx2 : ((all.drop k).take (blk.length - k)).length = blk.length - k := by rw [hxl]; omega
      rw [if_neg (by omega), hx2, show k + (blk.length - k) = blk.length by omega]
      cases fuel with
      | zero => rw [Nat.pow_zero, Nat.mul_one] at h4; omega
      | succ f =>
        have hl2 : (putAt blk k ((all.drop k).take (blk.length - k)) ++ List.replicate blk.length (none : Option Byte)).length =
            2 * blk.length := by rw [List.length_append, hpl, List.length_replicate]; omega
        obtain ⟨r, r1, r2, r3, r4⟩ := growLoop_good hall f (i + 1) blk.length
          (putAt blk k ((all.drop k).take (blk.length - k)) ++ List.replicate blk.length (none : Option Byte))
          (by rw [hl2]; omega) hfull (by rw [hl2]; omega)
          (by
            rw [List.take_append_of_le_length (Nat.le_of_eq hpl.symm)]
            have := putAt_take (n := blk.length - k) (blk := blk) (all := all) (k := k) (by omega) h3 (by omega)
            rw [show k + (blk.length - k) = blk.length by omega] at this
            exact this)
          (by
            rw [hl2]
            have : blk.length * 2 ^ (f + 1) = 2 * blk.length * 2 ^ f := by
              rw [Nat.pow_succ, Nat.mul_comm (2 ^ f) 2, ← Nat.mul_assoc, Nat.mul_comm blk.length 2]
            omega)
        refine ⟨r, r1, r2, ?_, r4⟩
        rw [hl2] at r3
        omega

theorem growFrom_good {all : List Byte} {late : Nat → Bool} (hall : all.length < 2 ^ 30) {n : Nat} (hn : 0 < n) :
    ∃ r, growFrom all true late n = .ok r ∧ Filled r all ∧ r.1.length ≤ max n (2 * all.length) ∧ all.length ≤ r.1.length := by
  have h : all.length < n * 2 ^ 63 := by
    have : 1 * 2 ^ 63 ≤ n * 2 ^ 63 := Nat.mul_le_mul_right _ hn
    omega
  obtain ⟨r, r1, r2, r3, r4⟩ := growLoop_good (late := late) hall 63 0 0 (List.replicate n none) (by omega) (by omega) (by simpa using hn) rfl
    (by simpa using h)
  exact ⟨r, r1, r2, by simpa using r3, r4⟩

/-- One call of the loop for a stream that ends: it is the last, or the buffer is full and grows. -/
theorem growLoop_call {all : List Byte} {late : Nat → Bool} {fuel i k : Nat} {blk : List (Option Byte)} (h1 : k ≤ blk.length)
    (h2 : k ≤ all.length) (h3 : blk.take k = (all.take k).map some) :
    if all.length < blk.length ∨ (all.length = blk.length ∧ late i = false) then
      ∃ r, growLoop all true late (fuel + 1) i k k blk = .ok r ∧ Filled r all
    else 2 ^ 30 ≤ blk.length ∧ growLoop all true late (fuel + 1) i k k blk = .ub ∨
      blk.length < 2 ^ 30 ∧ blk.length ≤ all.length ∧ ∃ blk', blk'.length = 2 * blk.length ∧
        blk'.take blk.length = (all.take blk.length).map some ∧
        growLoop all true late (fuel + 1) i k k blk = growLoop all true late fuel (i + 1) blk.length blk.length blk' := by
  have hxl : ((all.drop k).take (blk.length - k)).length = min (blk.length - k) (all.length - k) := by simp
  have hpl : (putAt blk k ((all.drop k).take (blk.length - k))).length = blk.length := putAt_length (by rw [hxl]; omega)
  rw [growLoop]
  simp only [true_and]
  by_cases c : all.length < blk.length ∨ (all.length = blk.length ∧ late i = false)
  · rw [if_pos c]
    have e : (all.drop k).take (blk.length - k) = (all.drop k).take (all.length - k) := by
      rw [List.take_of_length_le (by simp; omega), List.take_of_length_le (by simp)]
    have hm : min (blk.length - k) (all.length - k) = all.length - k := by omega
    have cc : k + min (blk.length - k) (all.length - k) = all.length ∧
        (min (blk.length - k) (all.length - k) < blk.length - k ∨ late i = false) := by
      refine ⟨by omega, ?_⟩
      rcases c with c | ⟨_, c⟩
      · exact .inl (by omega)
      · exact .inr c
    rw [if_pos (by rw [hxl]; exact cc)]
    refine ⟨_, rfl, ?_, ?_⟩
    · show k + _ = _
      rw [hxl]; exact cc.1
    · show (putAt _ _ _).take (k + _) = _
      rw [hxl, cc.1, e]
      have := putAt_take (n := all.length - k) (blk := blk) (all := all) (k := k) (by omega) h3 (by omega)
      rw [show k + (all.length - k) = all.length by omega, List.take_length] at this
      exact this
  · rw [if_neg c]
    have hfull : blk.length ≤ all.length := by
      by_contra hc
      exact c (.inl (by omega))
    have hx2 : ((all.drop k).take (blk.length - k)).length = blk.length - k := by rw [hxl]; omega
    have nc : ¬ (k + (blk.length - k) = all.length ∧ (blk.length - k < blk.length - k ∨ late i = false)) := by
      rintro ⟨a, b | b⟩
      · omega
      · exact c (.inr ⟨by omega, b⟩)
    rw [if_neg (by rw [hx2]; exact nc), hx2, show k + (blk.length - k) = blk.length by omega]
    by_cases d : 2 ^ 30 ≤ blk.length
    · rw [if_pos d]; exact .inl ⟨d, rfl⟩
    · rw [if_neg d]
      refine .inr ⟨by omega, hfull, _, ?_, ?_, rfl⟩
      · rw [List.length_append, hpl, List.length_replicate]; omega
      · rw [List.take_append_of_le_length (Nat.le_of_eq hpl.symm)]
        have := putAt_take (n := blk.length - k) (blk := blk) (all := all) (k := k) (by omega) h3 (by omega)
        rw [show k + (blk.length - k) = blk.length by omega] at this
        exact this

theorem growLoop_exact {all : List Byte} {late : Nat → Bool} : ∀ (j fuel i k : Nat) (blk : List (Option Byte)), j < fuel →
    k ≤ blk.length → k ≤ all.length → 0 < blk.length → blk.take k = (all.take k).map some →
    (∀ j' < j, blk.length * 2 ^ j' < 2 ^ 30) → 2 ^ 30 ≤ blk.length * 2 ^ j →
    if all.length < blk.length * 2 ^ j ∨ (all.length = blk.length * 2 ^ j ∧ late (i + j) = false) then
      ∃ r, growLoop all true late fuel i k k blk = .ok r ∧ Filled r all
    else growLoop all true late fuel i k k blk = .ub
  | 0, 0, _, _, _, hf, _, _, _, _, _, _ => absurd hf (by omega)
  | 0, fuel + 1, i, k, blk, _, h1, h2, _, h3, _, hb => by
    rw [Nat.pow_zero, Nat.mul_one] at hb ⊢
    rw [Nat.add_zero]
    have := growLoop_call (late := late) (fuel := fuel) (i := i) h1 h2 h3
    by_cases c : all.length < blk.length ∨ (all.length = blk.length ∧ late i = false)
    · rw [if_pos c] at this
      rw [if_pos c]; exact this
    · rw [if_neg c] at this
      rw [if_neg c]
      rcases this with ⟨_, h⟩ | ⟨h, _⟩
      · exact h
      · omega
  | j + 1, 0, _, _, _, hf, _, _, _, _, _, _ => absurd hf (by omega)
  | j + 1, fuel + 1, i, k, blk, hf, h1, h2, h0, h3, hs, hb => by
    have hp : blk.length * 2 ^ (j + 1) = 2 * blk.length * 2 ^ j := by
      rw [Nat.pow_succ, Nat.mul_comm (2 ^ j) 2, ← Nat.mul_assoc, Nat.mul_comm blk.length 2]
    have hlt : blk.length < 2 * blk.length * 2 ^ j := by
      have : 2 * blk.length * 1 ≤ 2 * blk.length * 2 ^ j := Nat.mul_le_mul_left _ Nat.one_le_two_pow
      omega
    have hsm : blk.length < 2 ^ 30 := by have := hs 0 (by omega); rwa [Nat.pow_zero, Nat.mul_one] at this
    have hc := growLoop_call (late := late) (fuel := fuel) (i := i) h1 h2 h3
    by_cases c : all.length < blk.length ∨ (all.length = blk.length ∧ late i = false)
    · rw [if_pos c] at hc
      rw [if_pos (.inl (by rw [hp]; omega))]; exact hc
    · rw [if_neg c] at hc
      rcases hc with ⟨h, _⟩ | ⟨_, hfull, blk', b1, b2, b3⟩
      · omega
      · rw [b3, hp, ← b1, show i + (j + 1) = i + 1 + j by omega]
        refine growLoop_exact j fuel (i + 1) blk.length blk' (by omega) (by omega) hfull (by omega) b2 (fun j' hj => ?_) ?_
        · have := hs (j' + 1) (by omega)
          rw [Nat.pow_succ, Nat.mul_comm (2 ^ j') 2, ← Nat.mul_assoc, Nat.mul_comm blk.length 2] at this
          rw [b1]; exact this
        · rw [b1, ← hp]; exact hb

/-- **C100.** Which results fit, exactly: with a first buffer of `n` bytes the largest one is the first of `n`, `2n`, `4n`, … of at
least 1 GiB; smaller results are returned exactly, larger ones overflow, and one that just fits is returned if zlib tells the end of
the stream at once. -/
theorem C100_exact (all : List Byte) (late : Nat → Bool) {n j : Nat} (hn : 0 < n) (hs : ∀ j' < j, n * 2 ^ j' < 2 ^ 30)
    (hb : 2 ^ 30 ≤ n * 2 ^ j) :
    if all.length < n * 2 ^ j ∨ (all.length = n * 2 ^ j ∧ late j = false) then
      ∃ r, growFrom all true late n = .ok r ∧ Filled r all
    else growFrom all true late n = .ub := by
  have hj : j < 64 := by
    by_contra hc
    have h1 := hs 63 (by omega)
    have : 1 * 2 ^ 63 ≤ n * 2 ^ 63 := Nat.mul_le_mul_right _ hn
    omega
  have := growLoop_exact (all := all) (late := late) j 64 0 0 (List.replicate n none) hj (by omega) (by omega) (by simpa using hn) rfl
    (by simpa using hs) (by simpa using hb)
  rw [List.length_replicate, Nat.zero_add] at this
  exact this

/-- A first buffer of 3 bytes grows to one and a half GiB, no further. -/
example : (∀ j' < 29, 3 * 2 ^ j' < 2 ^ 30) ∧ 2 ^ 30 ≤ 3 * 2 ^ 29 ∧ 3 * 2 ^ 29 < 2 ^ 31 := by decide +kernel

/-- **C100.** Compression into a growing buffer: for every input and every compressor, with fewer than 2^30 bytes of result: the
buffer holds exactly the compressed bytes and is not larger than the first one or twice what is needed. -/
theorem C100_compress_partial (z : Zlib) (late : Nat → Bool) (x : List Byte) (h : (z.comp x).length < 2 ^ 30) :
    ∃ r, compressAlloc z late x = .ok r ∧ Filled r (z.comp x) ∧ r.1.length ≤ max (max 6 (x.length / 8)) (2 * (z.comp x).length) := by
  obtain ⟨r, r1, r2, r3, _⟩ := growFrom_good (late := late) h (n := max 6 (x.length / 8)) (by omega)
  exact ⟨r, r1, r2, r3⟩

/-- **C100.** Decompression into a growing buffer, of a stream that ends, without a buffer or with one of any size: the buffer holds
exactly what the stream contains. -/
theorem C100_decompress_partial (u : Unz) (late : Nat → Bool) {y : List Byte} (h : u.ends y = true) (hy : 0 < y.length)
    (hl : y.length < 2 ^ 30) (hu : (u.bytes y).length < 2 ^ 30) (n : Nat) :
    (∃ r, decompressAlloc u late y = .ok r ∧ Filled r (u.bytes y)) ∧ ∃ r, inflateAlloc u late y n = .ok r ∧ Filled r (u.bytes y) := by
  have h1 : ∃ r, decompressAlloc u late y = .ok r ∧ Filled r (u.bytes y) := by
    obtain ⟨r, r1, r2, _⟩ := growFrom_good (late := late) hu (n := 2 * y.length) (by omega)
    refine ⟨r, ?_, r2⟩
    unfold decompressAlloc
    rw [if_neg (by omega), h]
    exact r1
  refine ⟨h1, ?_⟩
  unfold inflateAlloc
  by_cases c : n = 0
  · rw [if_pos c]; exact h1
  · rw [if_neg c, h]
    obtain ⟨r, r1, r2, _⟩ := growFrom_good (late := late) hu (n := n) (by omega)
    exact ⟨r, r1, r2⟩

/-- **C100.** What was compressed is decompressed to the same bytes. -/
theorem C100_roundtrip_partial {z : Zlib} {u : Unz} (hz : Inverse z u) (late late' : Nat → Bool) {x : List Byte} (hx : x.length < 2 ^ 30)
    (hc : (z.comp x).length < 2 ^ 30) (n : Nat) :
    ∃ r, compressAlloc z late x = .ok r ∧ ∃ y : List Byte, r.1.take r.2 = y.map some ∧
      ∃ r', inflateAlloc u late' y n = .ok r' ∧ Filled r' x := by
  obtain ⟨r, r1, r2, _⟩ := C100_compress_partial z late x hc
  obtain ⟨z1, z2, z3⟩ := hz x
  refine ⟨r, r1, z.comp x, r2.2, ?_⟩
  have := (C100_decompress_partial u late' z3 (List.length_pos_iff.mpr z1) hc (by rw [z2]; exact hx) n).2
  rw [z2] at this
  exact this

theorem growLoop_bad {all : List Byte} {late : Nat → Bool} : ∀ (fuel i p k : Nat) (blk : List (Option Byte)),
    growLoop all false late fuel i p k blk = .ub
  | 0, _, _, _, _ => rfl
  | fuel + 1, i, p, k, blk => by
    rw [growLoop]
    simp only [Bool.false_eq_true, false_and, if_false]
    split
    · rfl
    · exact growLoop_bad fuel _ _ _ _

/-- **C100, violated.** Damaged or incomplete input is never refused: the buffer is doubled until its size overflows. -/
theorem C100_damaged_violated (u : Unz) (late : Nat → Bool) {y : List Byte} (h : u.ends y = false) (n : Nat) :
    decompressAlloc u late y = .ub ∧ inflateAlloc u late y n = .ub := by
  have h1 : decompressAlloc u late y = .ub := by
    unfold decompressAlloc
    rw [h]
    split
    · rfl
    · exact growLoop_bad _ _ _ _ _
  refine ⟨h1, ?_⟩
  unfold inflateAlloc
  rw [h]
  split
  · exact h1
  · exact growLoop_bad _ _ _ _ _

theorem growLoop_large {all : List Byte} {good : Bool} {late : Nat → Bool} (hall : 2 ^ 31 ≤ all.length) :
    ∀ (fuel i k : Nat) (blk : List (Option Byte)), k ≤ blk.length → blk.length < 2 ^ 31 →
      growLoop all good late fuel i k k blk = .ub
  | 0, _, _, _, _, _ => rfl
  | fuel + 1, i, k, blk, h1, h2 => by
    have hxl : ((all.drop k).take (blk.length - k)).length = blk.length - k := by simp; omega
    have hpl : (putAt blk k ((all.drop k).take (blk.length - k))).length = blk.length := putAt_length (by rw [hxl]; omega)
    rw [growLoop]
    rw [hxl, if_neg (by omega)]
    by_cases c : 2 ^ 30 ≤ blk.length
    · rw [if_pos c]
    · rw [if_neg c, show k + (blk.length - k) = blk.length by omega]
      refine growLoop_large hall fuel _ _ _ ?_ ?_ <;> rw [List.length_append, hpl, List.length_replicate] <;> omega

/-- **C100, violated.** Results of 2 GiB and more are not refused either: the size of the buffer overflows. -/
theorem C100_large_violated (z : Zlib) (u : Unz) (late : Nat → Bool) {x y : List Byte} (hx : x.length < 2 ^ 31)
    (hc : 2 ^ 31 ≤ (z.comp x).length) (hu : 2 ^ 31 ≤ (u.bytes y).length) {n : Nat} (hn : n < 2 ^ 31) :
    compressAlloc z late x = .ub ∧ decompressAlloc u late y = .ub ∧ inflateAlloc u late y n = .ub := by
  have h1 : decompressAlloc u late y = .ub := by
    unfold decompressAlloc
    split
    · rfl
    · exact growLoop_large hu _ _ _ _ (by omega) (by rw [List.length_replicate]; omega)
  refine ⟨growLoop_large hc _ _ _ _ (by omega) (by rw [List.length_replicate]; omega), h1, ?_⟩
  unfold inflateAlloc
  split
  · exact h1
  · exact growLoop_large hu _ _ _ _ (by omega) (by rw [List.length_replicate]; omega)

/-- **C100.** With a buffer of a given size decompression gives what the stream contains if the stream ends, is followed by nothing
and fits, and an error otherwise. -/
theorem C100_into (u : Unz) (rest : List Byte → Bool) (y : List Byte) (cap : Nat) :
    if u.ends y = true ∧ rest y = false ∧ (u.bytes y).length ≤ cap then inflateInto u rest y cap = .ok (u.bytes y)
    else inflateInto u rest y cap = .err := by
  unfold inflateInto
  by_cases c : u.ends y = true ∧ rest y = false ∧ (u.bytes y).length ≤ cap
  · rw [if_pos c, if_neg]
    rintro (h | h | h)
    · rw [c.1] at h; cases h
    · omega
    · rw [c.2.1] at h; cases h
  · rw [if_neg c, if_pos]
    cases h1 : u.ends y
    · exact .inl rfl
    · cases h2 : rest y
      · refine .inr (.inl ?_)
        by_contra h
        exact c ⟨h1, h2, by omega⟩
      · exact .inr (.inr rfl)

/-- **C100, violated.** Compression into a buffer of a given size: if all input was taken when the buffer was full, the call
succeeds with a part of the stream, which no decompressor that tells incomplete streams accepts. -/
theorem C100_cut_violated (z : ZlibS) (u : Unz) (rest : List Byte → Bool)
    (hu : ∀ (x : List Byte) (n : Nat), n < (z.comp x).length → u.ends ((z.comp x).take n) = false) {x : List Byte} {cap : Nat}
    (hc : cap < (z.comp x).length) (hs : z.short x cap = .filled) :
    ∃ y, deflateInto z x cap = .ok y ∧ y.length = cap ∧ ∀ n, inflateInto u rest y n = .err := by
  refine ⟨(z.comp x).take cap, ?_, by simp; omega, fun n => ?_⟩
  · unfold deflateInto
    rw [if_neg (by omega), hs]
  · unfold inflateInto
    rw [if_pos (.inl (hu x cap hc))]

/-! ### Cases -/

/-- A format in which every byte of the input is stored after a mark, and a mark ends the stream. -/
def markComp (x : List Byte) : List Byte := x.flatMap (fun b => [1, b]) ++ [0]

def markUnz : List Byte → List Byte × Bool
  | [] => ([], false)
  | [a] => ([], decide (a = 0))
  | a :: b :: r => if a = 0 then ([], true) else (b :: (markUnz r).1, (markUnz r).2)

def markZ : ZlibS := ⟨⟨markComp, fun n => 2 * n + 1⟩, fun _ _ => .filled⟩
def markU : Unz := ⟨fun y => (markUnz y).1, fun y => (markUnz y).2⟩

theorem mark_back (x : List Byte) : markUnz (markComp x) = (x, true) := by
  induction x with
  | nil => rfl
  | cons b x ih =>
    show markUnz (1 :: b :: markComp x) = _
    rw [markUnz, ih, if_neg (by decide)]

example : Inverse markZ.toZlib markU := fun x =>
  ⟨by simp [markZ, markComp], by show (markUnz (markComp x)).1 = x; rw [mark_back], by show (markUnz (markComp x)).2 = true; rw [mark_back]⟩

theorem mark_cut : ∀ (x : List Byte) (n : Nat), n < (markComp x).length → (markUnz ((markComp x).take n)).2 = false
  | [], 0, _ => rfl
  | [], n + 1, h => by simp [markComp] at h
  | b :: x, 0, _ => rfl
  | b :: x, 1, _ => rfl
  | b :: x, n + 2, h => by
    have h' : n + 2 < (markComp x).length + 2 := h
    show (markUnz (1 :: b :: (markComp x).take n)).2 = false
    rw [markUnz, if_neg (by decide)]
    exact mark_cut x n (by omega)

/-- A buffer that grows twice; the stream says at the last moment that it has ended, or one call later. -/
example : (∃ r, compressAlloc markZ.toZlib (fun _ => false) [5, 6, 7, 8, 9, 10, 11, 12] = .ok r ∧ r.1.length = 24 ∧ r.2 = 17) ∧
    (∃ r, growFrom (markComp [5, 6, 7, 8, 9]) true (fun _ => false) 11 = .ok r ∧ r.1.length = 11) ∧
    (∃ r, growFrom (markComp [5, 6, 7, 8, 9]) true (fun _ => true) 11 = .ok r ∧ r.1.length = 22) ∧
    markU.ends [1, 5, 1] = false ∧ deflateInto markZ [5, 6] 3 = .ok [1, 5, 1] := by
  refine ⟨⟨([1, 5, 1, 6, 1, 7, 1, 8, 1, 9, 1, 10, 1, 11, 1, 12, 0].map some ++ List.replicate 7 none, 17), by decide +kernel, rfl, rfl⟩,
    ⟨([1, 5, 1, 6, 1, 7, 1, 8, 1, 9, 0].map some, 11), by decide +kernel, rfl⟩,
    ⟨([1, 5, 1, 6, 1, 7, 1, 8, 1, 9, 0].map some ++ List.replicate 11 none, 11), by decide +kernel, rfl⟩, by decide +kernel, by decide +kernel⟩

/-- Results of 2 GiB, from inputs that are smaller or not. -/
example : (List.replicate (2 ^ 30) (5 : Byte)).length < 2 ^ 31 ∧ 2 ^ 31 ≤ (markZ.comp (List.replicate (2 ^ 30) 5)).length ∧
    2 ^ 31 ≤ (markU.bytes (markComp (List.replicate (2 ^ 31) 5))).length := by
  have hl (x : List Byte) : (markComp x).length = 2 * x.length + 1 := by
    induction x with
    | nil => rfl
    | cons b x ih =>
      show (markComp x).length + 2 = _
      rw [ih, List.length_cons]; omega
  refine ⟨by rw [List.length_replicate]; omega, ?_, ?_⟩
  · show _ ≤ (markComp _).length
    rw [hl, List.length_replicate]; omega
  · show _ ≤ (markUnz (markComp _)).1.length
    rw [mark_back, List.length_replicate]; exact Nat.le_refl _

end Verif.Props
