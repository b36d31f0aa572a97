import Verif.Model.Info
import Verif.Props.FileEx

/-
C46: connector information as text.
-/

namespace Verif.Props

theorem digits_eq (n : Nat) : digits n = Nat.toDigits 10 n := by
  unfold digits
  exact Nat.toList_repr

theorem readDigits_digits (n : Nat) : readDigits (Nat.toDigits 10 n) = n := by
  induction n using Nat.strongRecOn with
  | ind n ih =>
    by_cases h : n < 10
    · rw [Nat.toDigits_of_lt_base h]
      simp [readDigits, Nat.toNat_digitChar_sub_48_of_lt_ten h]
    · rw [Nat.toDigits_of_base_le (by decide) (by omega)]
      have e := ih (n / 10) (by omega)
      unfold readDigits at e ⊢
      rw [List.foldl_append, e]
      simp only [List.foldl_cons, List.foldl_nil, Nat.toNat_digitChar_sub_48_of_lt_ten (Nat.mod_lt n (by decide : 0 < 10))]
      omega

theorem digits_all (n : Nat) : ∀ c ∈ digits n, c.isDigit = true := by
  intro c hc
  rw [digits_eq] at hc
  exact Nat.isDigit_of_mem_toDigits (by decide) (by decide) hc

theorem digit_not_space {c : Char} (h : c.isDigit = true) : isSpace c = false ∧ c ≠ '+' ∧ c ≠ '-' ∧ c ≠ '{' := by
  have h1 : 48 ≤ c.toNat := by
    unfold Char.isDigit at h
    simp only [Bool.and_eq_true, decide_eq_true_eq] at h
    exact h.1
  refine ⟨?_, ?_, ?_, ?_⟩
  · unfold isSpace
    simp only [Bool.or_eq_false_iff, decide_eq_false_iff_not]
    refine ⟨⟨⟨⟨⟨?_, ?_⟩, ?_⟩, ?_⟩, ?_⟩, ?_⟩
    all_goals first
      | omega
      | (rintro rfl; revert h1; decide)
  · rintro rfl
    revert h1
    decide
  · rintro rfl
    revert h1
    decide
  · rintro rfl
    revert h
    decide

theorem takeWhile_digits (n : Nat) (r : Name) : (digits n ++ ';' :: r).takeWhile Char.isDigit = digits n := by
  have h := digits_all n
  revert h
  induction digits n with
  | nil => exact fun _ => rfl
  | cons c l ih =>
    intro h
    rw [List.cons_append, List.takeWhile_cons, h c (by simp)]
    simp only [if_true]
    rw [ih (fun d hd => h d (by simp [hd]))]

theorem scanU_digits (v : Nat) (hv : v < 2 ^ 32) (r : Name) : scanU (digits v ++ ';' :: r) = some (.ok v) := by
  obtain ⟨c, l, e⟩ : ∃ c l, digits v = c :: l := by
    cases h : digits v with
    | nil =>
      rw [digits_eq] at h
      exact absurd h Nat.toDigits_ne_nil
    | cons c l => exact ⟨c, l, rfl⟩
  have hc := digit_not_space (digits_all v c (by rw [e]; simp))
  have h1 : (digits v ++ ';' :: r).dropWhile isSpace = digits v ++ ';' :: r := by
    rw [e, List.cons_append, List.dropWhile_cons, hc.1]
    rfl
  have h2 : (digits v ++ ';' :: r).head? = some c := by rw [e]; rfl
  unfold scanU
  simp only [h1, h2]
  have h4 : ¬ (some c = some '+' ∨ some c = some '-') := by simp [hc.2.1, hc.2.2.1]
  simp only [if_neg h4, takeWhile_digits]
  rw [if_neg (by rw [e]; simp)]
  have h3 : readDigits (digits v) = v := by rw [digits_eq, readDigits_digits]
  rw [h3, if_neg (by omega), if_neg (by simp [hc.2.2.1]), Nat.mod_eq_of_lt hv]

theorem dropWhile_append_of {p : Char → Bool} {a b : Name} (h : ∀ c ∈ a, p c = true) : (a ++ b).dropWhile p = b.dropWhile p := by
  induction a with
  | nil => rfl
  | cons c a ih =>
    rw [List.cons_append, List.dropWhile_cons, h c (by simp)]
    simp only [if_true]
    exact ih (fun d hd => h d (by simp [hd]))

theorem scanInfo_text (i : VInfo) : scanInfo (infoText i) = .ok (i.info.getD []) := by
  have h1 : (infoText i).dropWhile (fun c => c != '{') = '{' :: (i.info.getD [] ++ ['}']) := by
    have e : infoText i = ("under_vol=".toList ++ digits i.value ++ ";under_info=".toList) ++ '{' :: (i.info.getD [] ++ ['}']) := by
      unfold infoText
      have : ";under_info={".toList = ";under_info=".toList ++ ['{'] := by decide
      rw [this]
      simp
    rw [e, dropWhile_append_of]
    · rfl
    · intro c hc
      rw [List.mem_append, List.mem_append] at hc
      rcases hc with (hc | hc) | hc
      · revert c
        decide
      · have := (digit_not_space (digits_all _ c hc)).2.2.2
        simp [this]
      · revert c
        decide
  unfold scanInfo
  simp only [h1, List.tail_cons, List.reverse_append, List.reverse_cons, List.reverse_nil, List.nil_append, List.singleton_append]
  have h2 : ('}' :: (i.info.getD []).reverse).dropWhile (fun c => c != '}') = '}' :: (i.info.getD []).reverse := rfl
  rw [h2, if_neg (by simp)]
  simp

theorem scanValue_text (i : VInfo) (hv : i.value < 2 ^ 32) : scanValue (infoText i) = .ok i.value := by
  have e : infoText i = "under_vol=".toList ++ (digits i.value ++ ';' :: ("under_info={".toList ++ i.info.getD [] ++ ['}'])) := by
    unfold infoText
    have : ";under_info={".toList = ';' :: "under_info={".toList := by decide
    rw [this]
    simp
  have hl : "under_vol=".toList.length = 10 := by decide
  unfold scanValue
  rw [e, ← hl, List.take_left, List.drop_left, if_pos rfl, scanU_digits _ hv]
  rfl

theorem infoText_length (i : VInfo) : (infoText i).length = 24 + (digits i.value).length + (i.info.getD []).length := by
  unfold infoText
  simp only [List.length_append]
  have h1 : "under_vol=".toList.length = 10 := by decide
  have h2 : ";under_info={".toList.length = 13 := by decide
  have h3 : "}".toList.length = 1 := by decide
  omega

/-- **C46, text (partial).** For every under VOL with a value below ten million and every string of its information, also with
braces of nested connectors, the text is written inside the buffer and gives the same configuration when it is read (an
empty string is read as no information). -/
theorem C46_roundtrip_partial (v : Nat) (hv : v < 10000000) (s : Option Name) :
    ∃ t, infoToStr ⟨v, s⟩ = .ok t ∧ strToInfo t = .ok ⟨v, if s.getD [] = [] then none else some (s.getD [])⟩ := by
  have hd : (digits v).length ≤ 7 := by
    rw [digits_eq, Nat.length_toDigits_le_iff (by decide) (by decide)]
    exact hv
  refine ⟨infoText ⟨v, s⟩, ?_, ?_⟩
  · unfold infoToStr
    rw [if_pos]
    rw [infoText_length]
    simp only
    omega
  · unfold strToInfo
    rw [scanValue_text _ (by simp only; omega), Res.ok_bind, scanInfo_text, Res.ok_bind]
    rfl

/-- **C46 is violated: buffer.** For every value of eight digits or more, whatever the under VOL's information, the text does not
fit in the buffer. -/
theorem C46_buffer_violated (v : Nat) (hv : 10000000 ≤ v) (s : Option Name) : infoToStr ⟨v, s⟩ = .ub := by
  have hd : ¬ (digits v).length ≤ 7 := by
    rw [digits_eq, Nat.length_toDigits_le_iff (by decide) (by decide)]
    omega
  unfold infoToStr
  rw [if_neg]
  rw [infoText_length]
  simp only
  omega

theorem scanU_minus (v : Nat) (hv : v < 2 ^ 64) (r : Name) :
    scanU ('-' :: (digits v ++ ';' :: r)) = some (.ok ((2 ^ 64 - v) % 2 ^ 32)) := by
  have h1 : ('-' :: (digits v ++ ';' :: r)).dropWhile isSpace = '-' :: (digits v ++ ';' :: r) := by
    rw [List.dropWhile_cons, show isSpace '-' = false by decide]
    rfl
  have hne : digits v ≠ [] := by
    rw [digits_eq]
    exact Nat.toDigits_ne_nil
  unfold scanU
  simp only [h1, List.head?_cons, or_true, if_true, List.tail_cons, takeWhile_digits]
  rw [if_neg hne]
  have h3 : readDigits (digits v) = v := by rw [digits_eq, readDigits_digits]
  rw [h3, if_neg (by omega)]

/-- **C46 is violated: negative numbers.** A text that names a negative value is not refused; the connector looked for is another one. -/
theorem C46_negative_violated (v : Nat) (hv : 0 < v) (hv' : v < 2 ^ 32) (s : Name) :
    strToInfo ("under_vol=".toList ++ '-' :: (digits v ++ ';' :: ("under_info={".toList ++ s ++ ['}']))) =
      .ok ⟨2 ^ 32 - v, if s = [] then none else some s⟩ := by
  have hl : "under_vol=".toList.length = 10 := by decide
  have e1 : scanValue ("under_vol=".toList ++ '-' :: (digits v ++ ';' :: ("under_info={".toList ++ s ++ ['}']))) = .ok (2 ^ 32 - v) := by
    unfold scanValue
    rw [← hl, List.take_left, List.drop_left, if_pos rfl, scanU_minus v (by omega)]
    show Res.ok _ = _
    congr 1
    omega
  have e2 : scanInfo ("under_vol=".toList ++ '-' :: (digits v ++ ';' :: ("under_info={".toList ++ s ++ ['}']))) = .ok s := by
    have h1 : ("under_vol=".toList ++ '-' :: (digits v ++ ';' :: ("under_info={".toList ++ s ++ ['}']))).dropWhile (fun c => c != '{') =
        '{' :: (s ++ ['}']) := by
      have e : "under_vol=".toList ++ '-' :: (digits v ++ ';' :: ("under_info={".toList ++ s ++ ['}'])) =
          ("under_vol=".toList ++ ['-'] ++ digits v ++ ";under_info=".toList) ++ '{' :: (s ++ ['}']) := by
        have h1 : ";under_info=".toList = ';' :: "under_info=".toList := by decide
        have h2 : "under_info={".toList = "under_info=".toList ++ ['{'] := by decide
        rw [h1, h2]
        simp
      rw [e, dropWhile_append_of]
      · rfl
      · intro c hc
        rw [List.mem_append, List.mem_append, List.mem_append] at hc
        rcases hc with ((hc | hc) | hc) | hc
        · revert c
          decide
        · revert c
          decide
        · have := (digit_not_space (digits_all _ c hc)).2.2.2
          simp [this]
        · revert c
          decide
    unfold scanInfo
    simp only [h1, List.tail_cons, List.reverse_append, List.reverse_cons, List.reverse_nil, List.nil_append, List.singleton_append]
    have h2 : ('}' :: s.reverse).dropWhile (fun c => c != '}') = '}' :: s.reverse := rfl
    rw [h2, if_neg (by simp)]
    simp
  unfold strToInfo
  rw [e1, Res.ok_bind, e2, Res.ok_bind]
  rfl

/-- The value the code uses when the identifier of the under VOL is not valid (L135, L144). -/
example : infoToStr ⟨2 ^ 32 - 1, none⟩ = .ub := C46_buffer_violated _ (by decide) _

/-- **C46 is violated: other texts.** Every text that does not start with the expected key makes the code use a variable that was
never set. -/
theorem C46_text_violated (s : Name) (h : s.take 10 ≠ "under_vol=".toList) : strToInfo s = .ub := by
  unfold strToInfo scanValue
  rw [if_neg h]
  rfl

/-! ### Concrete cases -/

example : infoToStr ⟨512, some "under_vol=0;under_info={}".toList⟩ =
    .ok "under_vol=512;under_info={under_vol=0;under_info={}}".toList := by decide +kernel

example : strToInfo "under_vol=512;under_info={under_vol=0;under_info={}}".toList =
    .ok ⟨512, some "under_vol=0;under_info={}".toList⟩ := by decide +kernel

example : "native".toList.take 10 ≠ "under_vol=".toList := by decide

end Verif.Props
