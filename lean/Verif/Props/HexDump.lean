import Verif.Spec.HexDump

/-
C104: what hexDump prints.
-/

namespace Verif.Props

open Verif.Hex

/-- The buffer holds a string. -/
def Holds (buf : Buff) (p : List Char) : Prop :=
  (∀ j (h : j < p.length), buf j = some p[j]) ∧ buf p.length = some '\x00' ∧ ∀ c ∈ p, c ≠ '\x00'

theorem cstr_holds {buf : Buff} : ∀ (p : List Char) (n k : Nat), p.length < n → (∀ j (h : j < p.length), buf (k + j) = some p[j]) →
    buf (k + p.length) = some '\x00' → (∀ c ∈ p, c ≠ '\x00') → cstr buf n k = .ok p
  | [], n + 1, k, _, _, h0, _ => by
    rw [cstr, show buf k = some '\x00' from h0]
    simp only [if_true]
  | c :: p, n + 1, k, hn, hb, h0, hz => by
    rw [cstr, show buf k = some c from hb 0 (by rw [List.length_cons]; omega)]
    simp only [if_neg (hz c (List.mem_cons_self ..))]
    rw [List.length_cons] at hn h0
    rw [cstr_holds p n (k + 1) (by omega) (fun j h => ?_) (by rw [← h0]; congr 1; omega) fun c h => hz c (List.mem_cons_of_mem _ h)]
    · rfl
    · have := hb (j + 1) (by rw [List.length_cons]; omega)
      rw [List.getElem_cons_succ] at this
      rw [← this]; congr 1; omega

theorem endLine_holds {buf : Buff} {p : List Char} (h : Holds buf p) (hp : p.length ≤ 16) : endLine buf = .ok ([' ', ' '] ++ p ++ ['\n']) := by
  unfold endLine
  rw [cstr_holds p 17 0 (by omega) (fun j hj => by rw [Nat.zero_add]; exact h.1 j hj) (by rw [Nat.zero_add]; exact h.2.1) h.2.2]
  rfl

theorem printable_nz (b : Byte) : printable b ≠ '\x00' := by
  unfold printable
  by_cases c : b.toNat < 0x20 ∨ 0x7e < b.toNat
  · rw [if_pos c]; decide
  · rw [if_neg c]
    have key : ∀ n < 127, 32 ≤ n → Char.ofNat n ≠ '\x00' := by decide
    exact key _ (by omega) (by omega)

/-- Two stores make the string one longer. -/
theorem holds_put {buf : Buff} {p : List Char} {c : Char} (hp : p.length < 16) (h : ∀ j (h : j < p.length), buf j = some p[j])
    (hz : ∀ c ∈ p, c ≠ '\x00') (hc : c ≠ '\x00') :
    ∃ buf', ((put buf p.length c).bind fun buf => put buf (p.length + 1) '\x00') = .ok buf' ∧ Holds buf' (p ++ [c]) := by
  refine ⟨fun j => if j = p.length + 1 then some '\x00' else if j = p.length then some c else buf j, ?_, ?_, ?_, ?_⟩
  · unfold put
    simp only [if_neg (show ¬ 17 ≤ p.length by omega), Res.bind, if_neg (show ¬ 17 ≤ p.length + 1 by omega)]
  · intro j hj
    rw [List.length_append, List.length_singleton] at hj
    simp only [if_neg (show ¬ j = p.length + 1 by omega)]
    by_cases e : j = p.length
    · subst e
      simp
    · rw [if_neg e, h j (by omega), List.getElem_append_left]
  · simp
  · intro x hx
    rcases List.mem_append.mp hx with hx | hx
    · exact hz x hx
    · rw [List.mem_singleton.mp hx]; exact hc

theorem columns_eq : ∀ (n : Nat) (r : List Byte), r.length ≤ n → columns n r = r.flatMap hex2 ++ List.replicate (3 * (n - r.length)) ' '
  | 0, [], _ => rfl
  | n + 1, [], _ => by
    rw [columns, columns_eq n [] (Nat.zero_le _)]
    simp only [List.flatMap_nil, List.nil_append, List.length_nil, Nat.sub_zero]
    rw [show 3 * (n + 1) = 3 * n + 1 + 1 + 1 by omega, List.replicate_succ, List.replicate_succ, List.replicate_succ]
    rfl
  | n + 1, b :: r, h => by
    rw [List.length_cons] at h
    rw [columns, columns_eq n r (by omega), List.flatMap_cons, List.length_cons, List.append_assoc, show n + 1 - (r.length + 1) = n - r.length by omega]

theorem text_nil (k : Nat) : text k [] = [] := by rw [text, if_pos rfl]

theorem text_row {k : Nat} {r : List Byte} (h0 : r ≠ []) (h : r.length ≤ 16) : text k r = line k r := by
  rw [text, if_neg h0, List.take_of_length_le h, List.drop_eq_nil_of_le h, text_nil, List.append_nil]

theorem text_append : ∀ (n k : Nat) (a c : List Byte), a.length = 16 * n → text k (a ++ c) = text k a ++ text (k + a.length) c
  | 0, k, a, c, h => by
    have : a = [] := List.length_eq_zero_iff.mp (by omega)
    rw [this, text_nil]; rfl
  | n + 1, k, a, c, h => by
    have ha : a ≠ [] := by intro e; rw [e, List.length_nil] at h; omega
    rw [text, if_neg (by simp [ha]), List.take_append_of_le_length (by omega), List.drop_append_of_le_length (by omega),
      text_append n (k + 16) (a.drop 16) c (by rw [List.length_drop]; omega), text.eq_def k a, if_neg ha, List.append_assoc, List.length_drop,
      show k + 16 + (a.length - 16) = k + a.length by omega]

/-- What has been printed of the bytes `full ++ row`, of which `row` are on the current line. -/
structure Printed (full row : List Byte) (s : St) : Prop where
  rows : ∃ n, full.length = 16 * n
  some : row ≠ []
  fits : row.length ≤ 16
  i : s.i = full.length + row.length
  buf : Holds s.buf (row.map printable)
  out : s.out = text 0 full ++ offset full.length ++ row.flatMap hex2

theorem nz_map (r : List Byte) : ∀ c ∈ r.map printable, c ≠ '\x00' := by
  intro c hc
  obtain ⟨b, _, rfl⟩ := List.mem_map.mp hc
  exact printable_nz b

theorem full_line {full row : List Byte} {s : St} (h : Printed full row s) (h16 : row.length = 16) :
    s.out ++ ([' ', ' '] ++ row.map printable ++ ['\n']) = text 0 (full ++ row) := by
  obtain ⟨n, hn⟩ := h.rows
  rw [text_append n 0 full row hn, text_row h.some h.fits, h.out, line, columns_eq 16 row h.fits, h16, Nat.zero_add]
  simp only [Nat.sub_self, Nat.mul_zero, List.replicate_zero, List.append_nil, List.append_assoc]

theorem step_printed {full row : List Byte} {s : St} (h : Printed full row s) (b : Byte) :
    ∃ s' full' row', step s b = .ok s' ∧ Printed full' row' s' ∧ full' ++ row' = full ++ row ++ [b] := by
  obtain ⟨n, hn⟩ := h.rows
  have hpos := List.length_pos_iff.mpr h.some
  have hfit := h.fits
  have hi := h.i
  unfold step
  by_cases c : row.length = 16
  · obtain ⟨buf', hb1, hb2⟩ := holds_put (buf := s.buf) (p := []) (by decide) (fun j hj => absurd hj (by simp)) (by simp) (printable_nz b)
    refine ⟨⟨s.i + 1, buf', text 0 (full ++ row) ++ offset s.i ++ hex2 b⟩, full ++ row, [b], ?_, ?_, rfl⟩
    · have hbeg : begin s = .ok (text 0 (full ++ row) ++ offset s.i) := by
        unfold begin
        rw [if_pos (by omega), if_neg (by omega), endLine_holds h.buf (by rw [List.length_map]; omega)]
        simp only [Res.bind]
        rw [full_line h c]
      rw [hbeg, show s.i % 16 = 0 by omega]
      simp only [List.length_nil] at hb1
      simp only [Res.bind]
      cases hp : put s.buf 0 (printable b) with
      | err => rw [hp] at hb1; cases hb1
      | ub => rw [hp] at hb1; cases hb1
      | ok buf1 =>
        rw [hp] at hb1
        simp only [Res.bind] at hb1 ⊢
        rw [hb1]
    · refine ⟨⟨n + 1, by rw [List.length_append]; omega⟩, by simp, by simp, ?_, by simpa using hb2, ?_⟩
      · show s.i + 1 = _
        rw [List.length_append, List.length_singleton]; omega
      · show _ = _
        rw [List.length_append, ← hi, List.flatMap_cons, List.flatMap_nil, List.append_nil]
  · obtain ⟨buf', hb1, hb2⟩ := holds_put (buf := s.buf) (p := row.map printable) (by rw [List.length_map]; omega) h.buf.1 (nz_map row)
      (printable_nz b)
    refine ⟨⟨s.i + 1, buf', s.out ++ hex2 b⟩, full, row ++ [b], ?_, ?_, (List.append_assoc ..).symm⟩
    · have hbeg : begin s = .ok s.out := by
        unfold begin
        rw [if_neg (by omega)]
      rw [hbeg, show s.i % 16 = row.length by omega]
      rw [List.length_map] at hb1
      simp only [Res.bind]
      cases hp : put s.buf row.length (printable b) with
      | err => rw [hp] at hb1; cases hb1
      | ub => rw [hp] at hb1; cases hb1
      | ok buf1 =>
        rw [hp] at hb1
        simp only [Res.bind] at hb1 ⊢
        rw [hb1]
    · refine ⟨⟨n, hn⟩, by simp, by rw [List.length_append, List.length_singleton]; omega, ?_, ?_, ?_⟩
      · show s.i + 1 = _
        rw [List.length_append, List.length_singleton]; omega
      · rw [List.map_append]; exact hb2
      · show _ = _
        rw [h.out, List.flatMap_append, List.flatMap_cons, List.flatMap_nil, List.append_nil]
        simp only [List.append_assoc]

theorem steps_printed : ∀ (bs : List Byte) {full row : List Byte} {s : St}, Printed full row s →
    ∃ s' full' row', steps bs s = .ok s' ∧ Printed full' row' s' ∧ full' ++ row' = full ++ row ++ bs
  | [], full, row, s, h => ⟨s, full, row, rfl, h, by rw [List.append_nil]⟩
  | b :: bs, full, row, s, h => by
    obtain ⟨s1, f1, r1, e1, p1, a1⟩ := step_printed h b
    obtain ⟨s2, f2, r2, e2, p2, a2⟩ := steps_printed bs p1
    refine ⟨s2, f2, r2, ?_, p2, ?_⟩
    · rw [steps, e1]; exact e2
    · rw [a2, a1, List.append_assoc, List.singleton_append]

/-- **C104.** Whatever was in the buffer of the function: bytes, if there are any, are printed in lines of 16 with their offset, in
columns and as characters, and no memory outside of the buffer is accessed. -/
theorem C104_lines (buf : Buff) {bs : List Byte} (h : bs ≠ []) : hexDump buf bs = .ok (text 0 bs) := by
  cases bs with
  | nil => exact absurd rfl h
  | cons b bs =>
    obtain ⟨buf', hb1, hb2⟩ := holds_put (buf := buf) (p := []) (by decide) (fun j hj => absurd hj (by simp)) (by simp) (printable_nz b)
    have h1 : step ⟨0, buf, []⟩ b = .ok ⟨1, buf', offset 0 ++ hex2 b⟩ := by
      unfold step begin
      simp only [List.length_nil] at hb1
      simp only [Nat.zero_mod, if_true, List.nil_append, Nat.zero_add, Res.bind]
      cases hp : put buf 0 (printable b) with
      | err => rw [hp] at hb1; cases hb1
      | ub => rw [hp] at hb1; cases hb1
      | ok buf1 =>
        rw [hp] at hb1
        simp only [Res.bind] at hb1 ⊢
        rw [hb1]
    have hp : Printed [] [b] ⟨1, buf', offset 0 ++ hex2 b⟩ :=
      ⟨⟨0, rfl⟩, by simp, by simp, rfl, by simpa using hb2, by
        rw [text_nil, List.flatMap_cons, List.flatMap_nil, List.append_nil, List.nil_append]; rfl⟩
    obtain ⟨s, full, row, e, p, a⟩ := steps_printed bs hp
    unfold hexDump
    rw [steps, h1]
    simp only [Res.bind]
    rw [e]
    simp only
    rw [endLine_holds p.buf (by rw [List.length_map]; exact p.fits)]
    simp only
    obtain ⟨n, hn⟩ := p.rows
    have hpos := List.length_pos_iff.mpr p.some
    have hfit := p.fits
    have hi := p.i
    have hpad : padding s.i = 16 - row.length := by
      unfold padding
      by_cases c : s.i % 16 = 0
      · rw [if_pos c]; omega
      · rw [if_neg c]; omega
    rw [show b :: bs = full ++ row by rw [a]; rfl, text_append n 0 full row hn, text_row p.some p.fits, line, columns_eq 16 row p.fits,
      p.out, hpad, Nat.zero_add]
    simp only [List.append_assoc]

theorem digit_inj : ∀ a < 16, ∀ b < 16, digit a = digit b → a = b := by decide
theorem digit_ns : ∀ a < 16, digit a ≠ ' ' := by decide

theorem byte_div (b : Byte) : b.toNat / 16 < 16 := by have := b.toNat_lt; omega

theorem columns_len : ∀ (n : Nat) (r : List Byte), (columns n r).length = 3 * n
  | 0, _ => rfl
  | n + 1, [] => by rw [columns, List.length_append, columns_len n []]; simp only [List.length_cons, List.length_nil]; omega
  | n + 1, b :: r => by rw [columns, List.length_append, columns_len n r]; unfold hex2; simp only [List.length_cons, List.length_nil]; omega

theorem columns_inj : ∀ (n : Nat) (r r' : List Byte), r.length ≤ n → r'.length ≤ n → columns n r = columns n r' → r = r'
  | 0, [], [], _, _, _ => rfl
  | n + 1, [], [], _, _, _ => rfl
  | n + 1, [], b :: r, _, _, h => by
    rw [columns, columns] at h
    unfold hex2 at h
    simp only [List.cons_append, List.cons.injEq] at h
    exact absurd h.2.1.symm (digit_ns _ (byte_div b))
  | n + 1, b :: r, [], _, _, h => by
    rw [columns, columns] at h
    unfold hex2 at h
    simp only [List.cons_append, List.cons.injEq] at h
    exact absurd h.2.1 (digit_ns _ (byte_div b))
  | n + 1, b :: r, b' :: r', h1, h2, h => by
    rw [List.length_cons] at h1 h2
    rw [columns, columns] at h
    unfold hex2 at h
    simp only [List.cons_append, List.nil_append, List.cons.injEq, true_and] at h
    obtain ⟨e1, e2, e3⟩ := h
    have d1 := digit_inj _ (byte_div b) _ (byte_div b') e1
    have d2 := digit_inj _ (Nat.mod_lt _ (by decide)) _ (Nat.mod_lt _ (by decide)) e2
    rw [columns_inj n r r' (by omega) (by omega) e3, show b = b' from UInt8.toNat_inj.mp (by omega)]

theorem text_inj : ∀ (n k : Nat) (b b' : List Byte), b.length ≤ n → text k b = text k b' → b = b'
  | n, k, [], [], _, _ => rfl
  | n, k, [], c :: b', _, h => by
    rw [text_nil, text, if_neg (List.cons_ne_nil _ _)] at h
    have := congrArg List.length h
    simp [line] at this
  | n, k, c :: b, [], _, h => by
    rw [text_nil, text, if_neg (List.cons_ne_nil _ _)] at h
    have := congrArg List.length h
    simp [line] at this
  | 0, k, c :: b, c' :: b', hn, h => by rw [List.length_cons] at hn; omega
  | n + 1, k, c :: b, c' :: b', hn, h => by
    rw [text, if_neg (List.cons_ne_nil _ _), text.eq_def k (c' :: b'), if_neg (List.cons_ne_nil _ _)] at h
    generalize hx : c :: b = x at h ⊢
    generalize hy : c' :: b' = y at h ⊢
    have hxn : x.length ≤ n + 1 := by rw [← hx]; exact hn
    unfold line at h
    simp only [List.append_assoc] at h
    have h := List.append_cancel_left h
    obtain ⟨h1, h2⟩ := List.append_inj h (by rw [columns_len, columns_len])
    have hr := columns_inj 16 _ _ (by rw [List.length_take]; omega) (by rw [List.length_take]; omega) h1
    rw [hr] at h2
    have h2 := List.append_cancel_left (List.append_cancel_left (List.append_cancel_left h2))
    rw [← List.take_append_drop 16 x, ← List.take_append_drop 16 y, hr,
      text_inj n _ _ _ (by rw [List.length_drop]; omega) h2]

/-- **C104.** The bytes can be told from what is printed. -/
theorem C104_faithful (buf buf' : Buff) {bs bs' : List Byte} (h : bs ≠ []) (h' : bs' ≠ []) (he : hexDump buf bs = hexDump buf' bs') :
    bs = bs' := by
  rw [C104_lines buf h, C104_lines buf' h'] at he
  injection he with he
  exact text_inj _ 0 bs bs' (Nat.le_refl _) he

theorem hexValue_digit : ∀ n < 16, hexValue (digit n) = n := by decide
theorem hexValue_char : ∀ n < 16, hexValue n.digitChar = n := by decide

theorem numeral_snoc (ds : List Char) (c : Char) : numeral (ds ++ [c]) = 16 * numeral ds + hexValue c := by
  unfold numeral; rw [List.foldl_append]; rfl

theorem numeral_zeros : ∀ (n : Nat) (ds : List Char), numeral (List.replicate n '0' ++ ds) = numeral ds
  | 0, _ => rfl
  | n + 1, ds => by
    rw [List.replicate_succ, List.cons_append, ← numeral_zeros n ds]
    rfl

theorem toDigits_hex (k : Nat) : numeral (Nat.toDigits 16 k) = k ∧ ∀ c ∈ Nat.toDigits 16 k, hexValue c < 16 := by
  induction k using Nat.strongRecOn with
  | _ k ih =>
    rw [Nat.toDigits_eq_if (by decide)]
    by_cases c : k < 16
    · rw [if_pos c]
      refine ⟨?_, fun x hx => ?_⟩
      · show 16 * 0 + hexValue k.digitChar = k
        rw [hexValue_char k c]; omega
      · rw [List.mem_singleton.mp hx, hexValue_char k c]; exact c
    · rw [if_neg c]
      have h := ih (k / 16) (by omega)
      have hm : k % 16 < 16 := Nat.mod_lt _ (by decide)
      refine ⟨?_, fun x hx => ?_⟩
      · rw [numeral_snoc, h.1, hexValue_char _ hm]; omega
      · rcases List.mem_append.mp hx with hx | hx
        · exact h.2 x hx
        · rw [List.mem_singleton.mp hx, hexValue_char _ hm]; exact hm

/-- **C104.** What columns, characters and offsets are: two hexadecimal digits that tell the byte, the character with the code of the
byte if it can be printed, and hexadecimal digits that tell the offset, at least four and no more than needed. -/
theorem C104_format (b : Byte) (k : Nat) :
    (∃ h l, hex2 b = [' ', h, l] ∧ hexValue h < 16 ∧ hexValue l < 16 ∧ 16 * hexValue h + hexValue l = b.toNat) ∧
    (32 ≤ b.toNat ∧ b.toNat ≤ 126 → (printable b).toNat = b.toNat) ∧ (¬ (32 ≤ b.toNat ∧ b.toNat ≤ 126) → printable b = '.') ∧
    (∃ ds, offset k = [' ', ' '] ++ ds ++ [' '] ∧ (∀ c ∈ ds, hexValue c < 16) ∧ numeral ds = k ∧ 4 ≤ ds.length ∧
      ∀ n, 4 ≤ n → (ds.length ≤ n ↔ k < 16 ^ n)) := by
  have hm : b.toNat % 16 < 16 := Nat.mod_lt _ (by decide)
  refine ⟨⟨_, _, rfl, ?_, ?_, ?_⟩, fun h => ?_, fun h => ?_,
    List.replicate (4 - (Nat.toDigits 16 k).length) '0' ++ Nat.toDigits 16 k, rfl, ?_, ?_, ?_, ?_⟩
  · rw [hexValue_digit _ (byte_div b)]; exact byte_div b
  · rw [hexValue_digit _ hm]; exact hm
  · rw [hexValue_digit _ (byte_div b), hexValue_digit _ hm]; omega
  · unfold printable
    rw [if_neg (by omega)]
    have key : ∀ n < 127, (Char.ofNat n).toNat = n := by decide
    exact key _ (by omega)
  · unfold printable
    rw [if_pos (by omega)]
  · intro c hc
    rcases List.mem_append.mp hc with hc | hc
    · rw [(List.mem_replicate.mp hc).2]; decide
    · exact (toDigits_hex k).2 c hc
  · rw [numeral_zeros]; exact (toDigits_hex k).1
  · rw [List.length_append, List.length_replicate]; omega
  · intro n hn
    rw [List.length_append, List.length_replicate, ← Nat.length_toDigits_le_iff (b := 16) (by decide) (show 0 < n by omega)]
    omega

/-- **C104, violated.** Without any bytes the buffer, which was not set, is printed. -/
theorem C104_empty_violated : hexDump (fun _ => none) [] = .ub := by decide +kernel

/-- **C104, violated.** A file that cannot be opened is closed. -/
theorem C104_file_violated (desc : Option (List Char)) (buf : Buff) (bs : List Byte) : hexDumpFile false desc buf bs = .ub := rfl

/-- **C104, violated.** The description is printed to `stdout`, not to the file. -/
theorem C104_desc_violated (desc : List Char) (buf : Buff) {bs : List Byte} (h : bs ≠ []) :
    hexDumpFile true (some desc) buf bs = .ok (text 0 bs, desc ++ [':', '\n']) := by
  unfold hexDumpFile
  rw [if_pos rfl, C104_lines buf h]
  rfl

/-- A dump of 18 bytes. -/
example : hexDump (fun _ => none) ([72, 105, 0, 255] ++ List.replicate 14 65) =
    .ok ("  0000  48 69 00 ff 41 41 41 41 41 41 41 41 41 41 41 41  Hi..AAAAAAAAAAAA\n".toList ++
      "  0010  41 41                                            AA\n".toList) := by
  decide +kernel

end Verif.Props
