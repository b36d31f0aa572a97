import Verif.Model.Endian
import Mathlib.Tactic.IntervalCases

/-
C40: byte order.
-/

namespace Verif.Props

theorem lrev_append (a b c d : BitVec 8) : lrev (a ++ b ++ c ++ d : BitVec 32) = (d ++ c ++ b ++ a : BitVec 32) := by
  apply BitVec.eq_of_getLsbD_eq
  intro i hi
  simp only [lrev, BitVec.getLsbD_or, BitVec.getLsbD_and, BitVec.getLsbD_ushiftRight, BitVec.getLsbD_shiftLeft,
    BitVec.getLsbD_append]
  interval_cases i <;> simp

theorem llrev_append (a b c d e f g h : BitVec 8) : llrev (a ++ b ++ c ++ d ++ e ++ f ++ g ++ h : BitVec 64) =
    (h ++ g ++ f ++ e ++ d ++ c ++ b ++ a : BitVec 64) := by
  apply BitVec.eq_of_getLsbD_eq
  intro i hi
  simp only [llrev, BitVec.getLsbD_or, BitVec.getLsbD_and, BitVec.getLsbD_ushiftRight, BitVec.getLsbD_shiftLeft,
    BitVec.getLsbD_append]
  interval_cases i <;> simp

theorem append_toNat {w : Nat} (x : BitVec w) (b : BitVec 8) : (x ++ b).toNat = x.toNat * 256 + b.toNat := by
  rw [BitVec.toNat_append, ← Nat.shiftLeft_add_eq_or_of_lt b.isLt, Nat.shiftLeft_eq]

theorem ofBytes4 (a b c d : Byte) : BitVec.ofNat 32 (unle [a, b, c, d]) =
    (d.toBitVec ++ c.toBitVec ++ b.toBitVec ++ a.toBitVec : BitVec 32) := by
  apply BitVec.eq_of_toNat_eq
  have ha := a.toNat_lt; have hb := b.toNat_lt; have hc := c.toNat_lt; have hd := d.toNat_lt
  rw [BitVec.toNat_ofNat, append_toNat, append_toNat, append_toNat]
  simp only [unle, UInt8.toNat_toBitVec]
  omega

theorem ofBytes8 (a b c d e f g h : Byte) : BitVec.ofNat 64 (unle [a, b, c, d, e, f, g, h]) =
    (h.toBitVec ++ g.toBitVec ++ f.toBitVec ++ e.toBitVec ++ d.toBitVec ++ c.toBitVec ++ b.toBitVec ++ a.toBitVec :
      BitVec 64) := by
  apply BitVec.eq_of_toNat_eq
  have ha := a.toNat_lt; have hb := b.toNat_lt; have hc := c.toNat_lt; have hd := d.toNat_lt
  have he := e.toNat_lt; have hf := f.toNat_lt; have hg := g.toNat_lt; have hh := h.toNat_lt
  rw [BitVec.toNat_ofNat, append_toNat, append_toNat, append_toNat, append_toNat, append_toNat, append_toNat, append_toNat]
  simp only [unle, UInt8.toNat_toBitVec]
  omega

/-- C40: the swaps are involutions, for all values. -/
theorem C40_swap_involution :
    (∀ v, srev (srev v) = v) ∧ (∀ v, lrev (lrev v) = v) ∧ (∀ v, llrev (llrev v) = v) := by
  refine ⟨?_, ?_, ?_⟩ <;> intro v
  · apply BitVec.eq_of_getLsbD_eq
    intro i hi
    simp only [srev, BitVec.getLsbD_or, BitVec.getLsbD_and, BitVec.getLsbD_ushiftRight, BitVec.getLsbD_shiftLeft]
    interval_cases i <;> simp
  · have e : v = BitVec.ofNat 32 (unle (leN 4 v.toNat)) := by
      rw [unle_leN_of_lt (by have := v.isLt; omega), BitVec.ofNat_toNat, BitVec.setWidth_eq]
    rw [e]
    obtain ⟨l, hl⟩ : ∃ l, l = leN 4 v.toNat := ⟨_, rfl⟩
    have hlen : l.length = 4 := by rw [hl, leN_length]
    rw [← hl]
    match l, hlen with
    | [a, b, c, d], _ => rw [ofBytes4, lrev_append, lrev_append]
  · have e : v = BitVec.ofNat 64 (unle (leN 8 v.toNat)) := by
      rw [unle_leN_of_lt (by have := v.isLt; omega), BitVec.ofNat_toNat, BitVec.setWidth_eq]
    rw [e]
    obtain ⟨l, hl⟩ : ∃ l, l = leN 8 v.toNat := ⟨_, rfl⟩
    have hlen : l.length = 8 := by rw [hl, leN_length]
    rw [← hl]
    match l, hlen with
    | [a, b, c, d, e, f, g, h], _ => rw [ofBytes8, llrev_append, llrev_append]

theorem lrev_bytes {bs : List Byte} (h : bs.length = 4) : (lrev (BitVec.ofNat 32 (unle bs))).toNat = unle bs.reverse := by
  match bs, h with
  | [a, b, c, d], _ =>
    have e := ofBytes4 d c b a
    rw [ofBytes4, lrev_append, ← e, BitVec.toNat_ofNat]
    have hlt := unle_lt [d, c, b, a]
    simp only [List.length_cons, List.length_nil] at hlt
    exact Nat.mod_eq_of_lt (by omega)

theorem llrev_bytes {bs : List Byte} (h : bs.length = 8) :
    (llrev (BitVec.ofNat 64 (unle bs))).toNat = unle bs.reverse := by
  match bs, h with
  | [a, b, c, d, e, f, g, i], _ =>
    have x := ofBytes8 i g f e d c b a
    rw [ofBytes8, llrev_append, ← x, BitVec.toNat_ofNat]
    have hlt := unle_lt [i, g, f, e, d, c, b, a]
    simp only [List.length_cons, List.length_nil] at hlt
    exact Nat.mod_eq_of_lt (by omega)

theorem leN_unle_len {bs : List Byte} {k : Nat} (h : bs.length = k) : leN k (unle bs) = bs := by
  subst h; exact leN_unle bs

/-- Swapping a word in memory reverses its bytes, on both kinds of host. -/
theorem swap_one4 (big : Bool) {bs : List Byte} (h : bs.length = 4) :
    hostStore big 4 (lrev (BitVec.ofNat 32 (hostLoad big bs))).toNat = bs.reverse := by
  cases big
  · simp only [hostStore, hostLoad, Bool.false_eq_true, if_false]
    rw [lrev_bytes h, leN_unle_len (by simpa using h)]
  · simp only [hostStore, hostLoad, if_true]
    rw [lrev_bytes (by simpa using h), List.reverse_reverse, leN_unle_len h]

theorem swap_one8 (big : Bool) {bs : List Byte} (h : bs.length = 8) :
    hostStore big 8 (llrev (BitVec.ofNat 64 (hostLoad big bs))).toNat = bs.reverse := by
  cases big
  · simp only [hostStore, hostLoad, Bool.false_eq_true, if_false]
    rw [llrev_bytes h, leN_unle_len (by simpa using h)]
  · simp only [hostStore, hostLoad, if_true]
    rw [llrev_bytes (by simpa using h), List.reverse_reverse, leN_unle_len h]

theorem hostStore_length (big : Bool) (k n : Nat) : (hostStore big k n).length = k := by
  cases big <;> simp [hostStore]

theorem hostStore_reverse (big : Bool) (k n : Nat) : (hostStore big k n).reverse = hostStore (!big) k n := by
  cases big <;> simp [hostStore]

theorem hostLoad_store (big : Bool) {k n : Nat} (h : n < 256 ^ k) : hostLoad big (hostStore big k n) = n := by
  cases big <;> simp [hostStore, hostLoad, unle_leN_of_lt h]

theorem swap32_cons (big : Bool) {g : List Byte} (hg : g.length = 4) (n : Nat) (r : List Byte) :
    swap32 big (n + 1) (g ++ r) = g.reverse ++ swap32 big n r := by
  simp only [swap32]
  rw [List.take_left' hg, List.drop_left' hg, swap_one4 big hg]

theorem swap64_cons (big : Bool) {g : List Byte} (hg : g.length = 8) (n : Nat) (r : List Byte) :
    swap64 big (n + 1) (g ++ r) = g.reverse ++ swap64 big n r := by
  simp only [swap64]
  rw [List.take_left' hg, List.drop_left' hg, swap_one8 big hg]

/-- Swapping an array of 32-bit (64-bit) words gives the image of the other kind of host, whatever follows it. -/
theorem swap32_store (big : Bool) : ∀ (ws : List Nat) (r : List Byte),
    swap32 big ws.length (ws.flatMap (hostStore big 4) ++ r) = ws.flatMap (hostStore (!big) 4) ++ r
  | [], r => rfl
  | w :: ws, r => by
    rw [List.flatMap_cons, List.append_assoc, List.length_cons, swap32_cons big (hostStore_length big 4 w),
      swap32_store big ws r, hostStore_reverse, List.flatMap_cons, List.append_assoc]

theorem swap64_store (big : Bool) : ∀ (ws : List Nat) (r : List Byte),
    swap64 big ws.length (ws.flatMap (hostStore big 8) ++ r) = ws.flatMap (hostStore (!big) 8) ++ r
  | [], r => rfl
  | w :: ws, r => by
    rw [List.flatMap_cons, List.append_assoc, List.length_cons, swap64_cons big (hostStore_length big 8 w),
      swap64_store big ws r, hostStore_reverse, List.flatMap_cons, List.append_assoc]

theorem swap32_swap32 (big : Bool) : ∀ (n : Nat) (bs : List Byte), 4 * n ≤ bs.length →
    swap32 big n (swap32 big n bs) = bs
  | 0, _, _ => rfl
  | n + 1, bs, h => by
    have e : bs = bs.take 4 ++ bs.drop 4 := (List.take_append_drop 4 bs).symm
    have h4 : (bs.take 4).length = 4 := by rw [List.length_take]; omega
    rw [e, swap32_cons big h4, swap32_cons big (by rw [List.length_reverse]; exact h4), List.reverse_reverse,
      swap32_swap32 big n _ (by rw [List.length_drop]; omega)]

theorem swap64_swap64 (big : Bool) : ∀ (n : Nat) (bs : List Byte), 8 * n ≤ bs.length →
    swap64 big n (swap64 big n bs) = bs
  | 0, _, _ => rfl
  | n + 1, bs, h => by
    have e : bs = bs.take 8 ++ bs.drop 8 := (List.take_append_drop 8 bs).symm
    have h8 : (bs.take 8).length = 8 := by rw [List.length_take]; omega
    rw [e, swap64_cons big h8, swap64_cons big (by rw [List.length_reverse]; exact h8), List.reverse_reverse,
      swap64_swap64 big n _ (by rw [List.length_drop]; omega)]

/-- C40: swapping a buffer of any length twice gives it back. -/
theorem C40_buffer_involution (big : Bool) (n : Nat) (bs : List Byte) :
    (4 * n ≤ bs.length → swap32 big n (swap32 big n bs) = bs) ∧
    (8 * n ≤ bs.length → swap64 big n (swap64 big n bs) = bs) :=
  ⟨swap32_swap32 big n bs, swap64_swap64 big n bs⟩

/-- C40: the selection words, their number and the record number have the same bytes in the file on both kinds of host. -/
theorem C40_selection_file (ws : List Nat) (n : Nat) :
    wordsToFile true ws = wordsToFile false ws ∧ nselToFile true n = nselToFile false n := by
  constructor
  · have := swap64_store true ws []
    simp only [List.append_nil, Bool.not_true] at this
    simp only [wordsToFile, if_true, Bool.false_eq_true, if_false, this]
  · have h : (hostStore true 4 n).length = 4 := hostStore_length _ _ _
    have e := swap_one4 true h
    rw [hostStore_reverse] at e
    have hl : BitVec.ofNat 32 (hostLoad true (hostStore true 4 n)) = BitVec.ofNat 32 n := by
      apply BitVec.eq_of_toNat_eq
      simp [hostLoad, hostStore, unle_leN]
    rw [hl] at e
    simp only [nselToFile, if_true, Bool.false_eq_true, if_false]
    exact e

theorem image_split (big : Bool) (h : HdrWords) :
    ∃ r, h.image big = [h.metaSize, h.did, h.flag].flatMap (hostStore big 4) ++ r ∧
      r = hostStore big 8 h.foff ++ hostStore big 8 h.fsize := by
  refine ⟨_, ?_, rfl⟩
  simp [HdrWords.image, List.flatMap_cons]

theorem swap32_add (big : Bool) : ∀ (n m : Nat) (a r : List Byte), a.length = 4 * n →
    swap32 big (n + m) (a ++ r) = swap32 big n a ++ swap32 big m r
  | 0, m, a, r, h => by
    have : a = [] := List.eq_nil_of_length_eq_zero (by omega)
    subst this
    simp [swap32]
  | n + 1, m, a, r, h => by
    have e : a = a.take 4 ++ a.drop 4 := (List.take_append_drop 4 a).symm
    have h4 : (a.take 4).length = 4 := by rw [List.length_take]; omega
    have h5 : (a.drop 4).length = 4 * n := by rw [List.length_drop]; omega
    rw [e, List.append_assoc, Nat.add_right_comm, swap32_cons big h4, swap32_cons big h4, swap32_add big n m _ r h5,
      List.append_assoc]

/-- C40: the 32-bit fields of the header (size, dataset, flags) have the same bytes in the file on both kinds of host, and a
host reads back every header it has written. -/
theorem C40_header_partial (h : HdrWords) :
    (h.toFile true).take 12 = (h.toFile false).take 12 ∧
    (∀ big, h.metaSize < 2 ^ 32 → h.did < 2 ^ 32 → h.flag < 2 ^ 32 → h.foff < 2 ^ 64 → h.fsize < 2 ^ 64 →
      HdrWords.ofFile big (h.toFile big) = h) := by
  constructor
  · have key : ∀ big, ((h.toFile big).take 12) = [h.metaSize, h.did, h.flag].flatMap (hostStore false 4) := by
      intro big
      obtain ⟨r, e, _⟩ := image_split big h
      have hlen : ∀ b, ([h.metaSize, h.did, h.flag].flatMap (hostStore b 4)).length = 12 := by
        intro b
        simp [List.flatMap_cons, hostStore_length]
      unfold HdrWords.toFile
      cases big with
      | true =>
        rw [if_pos rfl, e, show (7 : Nat) = 3 + 4 from rfl, swap32_add true 3 4 _ _ (hlen true)]
        have := swap32_store true [h.metaSize, h.did, h.flag] []
        simp only [List.append_nil, Bool.not_true, List.length_cons, List.length_nil, Nat.zero_add] at this
        rw [this, List.take_left' (hlen false)]
      | false =>
        rw [if_neg (by simp), e, List.take_left' (hlen false)]
    rw [key true, key false]
  · intro big h1 h2 h3 h4 h5
    have himg : (if big then swap32 big 7 (h.toFile big) else h.toFile big) = h.image big := by
      unfold HdrWords.toFile
      cases big with
      | true =>
        simp only [if_true]
        rw [swap32_swap32]
        simp [HdrWords.image, hostStore_length]
      | false => rfl
    unfold HdrWords.ofFile
    simp only [himg]
    have e1 : (h.image big).take 4 = hostStore big 4 h.metaSize := by
      simp only [HdrWords.image, List.append_assoc]
      rw [List.take_left' (hostStore_length _ _ _)]
    have d1 : (h.image big).drop 4 =
        hostStore big 4 h.did ++ (hostStore big 4 h.flag ++ (hostStore big 8 h.foff ++ hostStore big 8 h.fsize)) := by
      simp only [HdrWords.image, List.append_assoc]
      rw [List.drop_left' (hostStore_length _ _ _)]
    have d2 : (h.image big).drop 8 = hostStore big 4 h.flag ++ (hostStore big 8 h.foff ++ hostStore big 8 h.fsize) := by
      rw [show 8 = 4 + 4 from rfl, ← List.drop_drop, d1, List.drop_left' (hostStore_length _ _ _)]
    have d3 : (h.image big).drop 12 = hostStore big 8 h.foff ++ hostStore big 8 h.fsize := by
      rw [show 12 = 8 + 4 from rfl, ← List.drop_drop, d2, List.drop_left' (hostStore_length _ _ _)]
    have d4 : (h.image big).drop 20 = hostStore big 8 h.fsize := by
      rw [show 20 = 12 + 8 from rfl, ← List.drop_drop, d3, List.drop_left' (hostStore_length _ _ _)]
    have t4 : (hostStore big 8 h.fsize).take 8 = hostStore big 8 h.fsize :=
      List.take_of_length_le (by rw [hostStore_length])
    rw [e1, d1, d2, d3, d4, t4, List.take_left' (hostStore_length _ _ _), List.take_left' (hostStore_length _ _ _),
      List.take_left' (hostStore_length _ _ _), hostLoad_store big (by omega), hostLoad_store big (by omega),
      hostLoad_store big (by omega), hostLoad_store big (by omega), hostLoad_store big (by omega)]

/-- C40 is violated by the 64-bit fields of the header: they are swapped as 32-bit words, so the halves are exchanged.  An
entry for data at offset 5 written on a big-endian host is read on a little-endian host as data at offset `5 * 2 ^ 32`. -/
theorem C40_header_violated : ∃ h : HdrWords, h.foff = 5 ∧ h.toFile true ≠ h.toFile false ∧
    (HdrWords.ofFile false (h.toFile true)).foff = 5 * 2 ^ 32 :=
  ⟨⟨44, 1, 0, 5, 8⟩, rfl, by decide, by decide⟩

/-- C40 is also violated by the reader on a big-endian host: dataset 1 is looked up as dataset `2 ^ 24` because the number is
used before it is swapped, and the swap of the selection of the last entry leaves the buffer. -/
theorem C40_reader_violated : ∃ h : HdrWords, h.did = 1 ∧ didTested false (h.toFile false) = 1 ∧
    didTested true (h.toFile true) = 2 ^ 24 ∧
    selsOfFile false 16 (wordsToFile false [3, 2]) = .ok (wordsToFile false [3, 2]) ∧
    selsOfFile true 16 (wordsToFile true [3, 2]) = .ub :=
  ⟨⟨44, 1, 0, 5, 8⟩, rfl, by decide, by decide, by decide, by decide⟩

example : wordsToFile true [258, 3] = [2, 1, 0, 0, 0, 0, 0, 0, 3, 0, 0, 0, 0, 0, 0, 0] ∧ nselToFile true 2 = [2, 0, 0, 0] := by
  decide

example : 4 * 2 ≤ [1, 2, 3, 4, 5, 6, 7, (8 : Byte)].length ∧
    swap32 true 2 [1, 2, 3, 4, 5, 6, 7, 8] = [4, 3, 2, 1, 8, 7, 6, 5] := by decide

end Verif.Props
