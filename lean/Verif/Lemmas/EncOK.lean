import Verif.Lemmas.MetaDecode

namespace Verif

theorem digits_iff {ds cs : List Nat} :
    Digits ds cs ↔ cs.length = ds.length ∧
      ∀ i, ∀ (h1 : i < cs.length) (h2 : i < ds.length), cs[i] < ds[i] := by
  induction ds generalizing cs with
  | nil => cases cs <;> simp [Digits]
  | cons d ds ih =>
    cases cs with
    | nil => simp [Digits]
    | cons c cs =>
      simp only [Digits, ih, List.length_cons, Nat.add_right_cancel_iff]
      constructor
      · rintro ⟨h0, hl, h⟩
        refine ⟨hl, fun i => ?_⟩
        cases i with
        | zero => intros; exact h0
        | succ i => intro h1 h2; exact h i (by simpa using h1) (by simpa using h2)
      · rintro ⟨hl, h⟩
        refine ⟨h 0 (by simp) (by simp), hl, fun i h1 h2 => ?_⟩
        exact h (i + 1) (by simpa using h1) (by simpa using h2)

/-- Tail digits after dropping `r` leading dimensions. -/
theorem digits_drop_tail {ds cs : List Nat} {r : Nat} (hl : cs.length = ds.length)
    (h : ∀ i, r + 1 ≤ i → ∀ (h1 : i < cs.length) (h2 : i < ds.length), cs[i] < ds[i]) :
    Digits (ds.drop r).tail (cs.drop r).tail := by
  rw [digits_iff]
  refine ⟨by simp [hl], fun i h1 h2 => ?_⟩
  simp only [List.tail_drop, List.getElem_drop]
  exact h _ (by omega) _ _

theorem prod_pos {l : List Nat} (h : ∀ x ∈ l, 0 < x) : 0 < prod l := by
  induction l with
  | nil => simp
  | cons a l ih =>
    rw [prod_cons]
    exact Nat.mul_pos (h a (by simp)) (ih (fun x hx => h x (by simp [hx])))

theorem prod_drop_le {l : List Nat} (h : ∀ x ∈ l, 0 < x) (r : Nat) : prod (l.drop r) ≤ prod l := by
  induction l generalizing r with
  | nil => simp
  | cons a l ih =>
    cases r with
    | zero => simp
    | succ r =>
      have := ih (fun x hx => h x (by simp [hx])) r
      have h1 := h a (by simp)
      rw [List.drop_succ_cons, prod_cons]
      calc prod (l.drop r) ≤ prod l := this
        _ = 1 * prod l := by simp
        _ ≤ a * prod l := Nat.mul_le_mul_right _ h1

theorem dsteps_le {l : List Nat} (h : ∀ x ∈ l, 0 < x) : ∀ w ∈ dsteps l, w ≤ prod l := by
  induction l with
  | nil => simp [dsteps]
  | cons a l ih =>
    intro w hw
    have h1 := prod_drop_le h 1
    simp only [List.drop_succ_cons, List.drop_zero] at h1
    simp only [dsteps, List.mem_cons] at hw
    rcases hw with rfl | hw
    · exact h1
    · exact Nat.le_trans (ih (fun x hx => h x (by simp [hx])) w hw) h1

theorem selEncode_le {ds cs : List Nat} (hl : cs.length = ds.length)
    (h0 : ∀ (h1 : 0 < cs.length) (h2 : 0 < ds.length), cs[0] ≤ ds[0])
    (h : Digits ds.tail cs.tail) : selEncode (dsteps ds) cs < 2 * prod ds ∨ prod ds = 0 := by
  cases ds with
  | nil => cases cs <;> simp_all [selEncode, dsteps]
  | cons d ds =>
    cases cs with
    | nil => simp at hl
    | cons c cs =>
      simp only [List.tail_cons] at h
      have hlt := selEncode_lt h
      have hcd : c ≤ d := h0 (Nat.succ_pos _) (Nat.succ_pos _)
      by_cases hd : d = 0
      · right; simp [hd]
      · left
        simp only [dsteps, selEncode, prod_cons]
        have h1 : c * prod ds ≤ d * prod ds := Nat.mul_le_mul_right _ hcd
        have h2 : 1 * prod ds ≤ d * prod ds := Nat.mul_le_mul_right _ (by omega)
        omega

theorem selEncode_top {ds cs : List Nat} (hl : cs.length = ds.length) (h : Digits ds.tail cs.tail) :
    selEncode (dsteps ds) cs < (cs.headD 0 + 1) * prod (ds.drop 1) := by
  cases ds with
  | nil => cases cs <;> simp_all [selEncode, dsteps, prod]
  | cons d ds =>
    cases cs with
    | nil => simp at hl
    | cons c cs =>
      have hlt := selEncode_lt (ds := ds) (cs := cs) h
      simp only [dsteps, selEncode, List.headD_cons, List.drop_succ_cons, List.drop_zero, Nat.add_mul, Nat.one_mul]
      omega

theorem encOK_of {dims : List Nat} {r : Nat} {bs : List Blk}
    (hb : ∀ b ∈ bs, b.start.length = dims.length ∧ b.count.length = dims.length ∧
      ∀ i, ∀ (hs : i < b.start.length) (hd : i < dims.length), b.start[i] < dims[i])
    (hw : ∀ b ∈ bs, Spec.NotFullWidth (r + 1) dims b) (hne : bs ≠ []) (hp : prod dims < 2 ^ 63)
    (ht : ∀ b ∈ bs, ∀ i, ∀ (h : i < b.count.length), (b.count[i] + 1) * prod (dims.drop (i + 1)) < 2 ^ 64) :
    EncOK dims r bs := by
  have hpos : ∀ x ∈ dims, 0 < x := by
    obtain ⟨b, bs', rfl⟩ := List.exists_cons_of_ne_nil hne
    obtain ⟨h1, h2, h3⟩ := hb b (by simp)
    intro x hx
    obtain ⟨i, hi, rfl⟩ := List.getElem_of_mem hx
    have := h3 i (by omega) hi
    omega
  have hdp : prod (dims.drop r) < 2 ^ 63 := Nat.lt_of_le_of_lt (prod_drop_le hpos r) hp
  have hpp : 0 < prod (dims.drop r) := prod_pos (fun x hx => hpos x (List.mem_of_mem_drop hx))
  have hds : ∀ b ∈ bs, Digits (dims.drop r).tail (b.start.drop r).tail := by
    intro b hbm
    obtain ⟨h1, h2, h3⟩ := hb b hbm
    exact digits_drop_tail h1 (fun i hi a1 a2 => h3 i a1 a2)
  have hdc : ∀ b ∈ bs, Digits (dims.drop r).tail (b.count.drop r).tail := by
    intro b hbm
    obtain ⟨h1, h2, h3⟩ := hb b hbm
    exact digits_drop_tail h2 (fun i hi a1 a2 => hw b hbm i hi a1 a2)
  refine ⟨hds, hdc, ?_, ?_⟩
  · intro w hw'
    rw [dsteps_drop] at hw'
    have := dsteps_le (l := dims.drop r) (fun x hx => hpos x (List.mem_of_mem_drop hx)) w hw'
    omega
  · intro w hw'
    unfold encWords at hw'
    rw [dsteps_drop] at hw'
    rcases List.mem_append.mp hw' with hh | hh
    · obtain ⟨b, hbm, rfl⟩ := List.mem_map.mp hh
      obtain ⟨h1, h2, h3⟩ := hb b hbm
      have := selEncode_le (ds := dims.drop r) (cs := b.start.drop r) (by simp [h1])
        (by
          intro a1 a2
          simp only [List.getElem_drop]
          have := h3 (r + 0) (by simp at a1; omega) (by simp at a2; omega)
          omega) (hds b hbm)
      omega
    · obtain ⟨b, hbm, rfl⟩ := List.mem_map.mp hh
      obtain ⟨h1, h2, h3⟩ := hb b hbm
      have h4 := selEncode_top (ds := dims.drop r) (cs := b.count.drop r) (by simp [h2]) (hdc b hbm)
      rw [List.drop_drop] at h4
      by_cases hr : r < b.count.length
      · have h5 := ht b hbm r hr
        have h6 : (b.count.drop r).headD 0 = b.count[r] := by rw [List.drop_eq_getElem_cons hr, List.headD_cons]
        rw [h6] at h4
        exact Nat.lt_trans h4 h5
      · have h6 : b.count.drop r = [] := List.drop_eq_nil_of_le (Nat.le_of_not_lt hr)
        have h7 : dims.drop (r + 1) = [] := List.drop_eq_nil_of_le (by omega)
        rw [h6, h7] at h4
        rw [h6]
        refine Nat.lt_trans h4 ?_
        simp [prod]

theorem encOK_of_extent {dims : List Nat} {r : Nat} {bs : List Blk}
    (hb : ∀ b ∈ bs, Spec.InExtent dims b) (hn : ∀ b ∈ bs, Spec.NonEmpty b)
    (hw : ∀ b ∈ bs, Spec.NotFullWidth (r + 1) dims b) (hne : bs ≠ [])
    (hp : prod dims < 2 ^ 63) : EncOK dims r bs := by
  have hpos : ∀ x ∈ dims, 0 < x := by
    obtain ⟨b, bs', rfl⟩ := List.exists_cons_of_ne_nil hne
    obtain ⟨h1, h2, h3⟩ := hb b (by simp)
    have h4 := hn b (by simp)
    intro x hx
    obtain ⟨i, hi, rfl⟩ := List.getElem_of_mem hx
    have := h3 i (by omega) (by omega) hi
    have := h4 b.count[i] (List.getElem_mem _)
    omega
  have hdp : prod (dims.drop r) < 2 ^ 63 := Nat.lt_of_le_of_lt (prod_drop_le hpos r) hp
  have hpp : 0 < prod (dims.drop r) := prod_pos (fun x hx => hpos x (List.mem_of_mem_drop hx))
  have hds : ∀ b ∈ bs, Digits (dims.drop r).tail (b.start.drop r).tail := by
    intro b hbm
    obtain ⟨h1, h2, h3⟩ := hb b hbm
    refine digits_drop_tail h1 (fun i hi a1 a2 => ?_)
    have := h3 i a1 (by omega) a2
    have := hn b hbm b.count[i] (List.getElem_mem _)
    omega
  have hdc : ∀ b ∈ bs, Digits (dims.drop r).tail (b.count.drop r).tail := by
    intro b hbm
    obtain ⟨h1, h2, h3⟩ := hb b hbm
    exact digits_drop_tail h2 (fun i hi a1 a2 => hw b hbm i hi a1 a2)
  refine ⟨hds, hdc, ?_, ?_⟩
  · intro w hw'
    rw [dsteps_drop] at hw'
    have := dsteps_le (l := dims.drop r) (fun x hx => hpos x (List.mem_of_mem_drop hx)) w hw'
    omega
  · intro w hw'
    unfold encWords at hw'
    rw [dsteps_drop] at hw'
    rcases List.mem_append.mp hw' with hh | hh
    · obtain ⟨b, hbm, rfl⟩ := List.mem_map.mp hh
      obtain ⟨h1, h2, h3⟩ := hb b hbm
      have := selEncode_le (ds := dims.drop r) (cs := b.start.drop r) (by simp [h1])
        (by
          intro a1 a2
          simp only [List.getElem_drop]
          have := h3 (r + 0) (by simp at a1; omega) (by simp at a2; omega) (by simp at a2; omega)
          omega) (hds b hbm)
      omega
    · obtain ⟨b, hbm, rfl⟩ := List.mem_map.mp hh
      obtain ⟨h1, h2, h3⟩ := hb b hbm
      have := selEncode_le (ds := dims.drop r) (cs := b.count.drop r) (by simp [h2])
        (by
          intro a1 a2
          simp only [List.getElem_drop]
          have := h3 (r + 0) (by simp at a2; omega) (by simp at a1; omega) (by simp at a2; omega)
          omega) (hdc b hbm)
      omega

namespace Spec

theorem inExtent_nil : InExtent [] ⟨[], []⟩ := ⟨rfl, rfl, by simp⟩

theorem inExtent_cons {d s c : Nat} {ds ss cs : List Nat} :
    InExtent (d :: ds) ⟨s :: ss, c :: cs⟩ ↔ s + c ≤ d ∧ InExtent ds ⟨ss, cs⟩ := by
  unfold InExtent
  simp only [List.length_cons, Nat.add_right_cancel_iff]
  constructor
  · rintro ⟨h1, h2, h3⟩
    refine ⟨h3 0 (by simp) (by simp) (by simp), h1, h2, fun i a b e => ?_⟩
    exact h3 (i + 1) (by omega) (by omega) (by omega)
  · rintro ⟨h0, h1, h2, h3⟩
    refine ⟨h1, h2, fun i => ?_⟩
    cases i with
    | zero => intros; exact h0
    | succ i => intro a b e; exact h3 i (by omega) (by omega) (by omega)

theorem notFullWidth_nil (k : Nat) {s : List Nat} : NotFullWidth k [] ⟨s, []⟩ := by
  intro i hi hc; simp at hc

theorem notFullWidth_cons {k d c : Nat} {ds s cs : List Nat} :
    NotFullWidth (k + 1) (d :: ds) ⟨s, c :: cs⟩ ↔ NotFullWidth k ds ⟨s, cs⟩ := by
  unfold NotFullWidth
  constructor
  · intro h i hi hc hd
    exact h (i + 1) (by omega) (by simpa using hc) (by simpa using hd)
  · intro h i
    cases i with
    | zero => intro hi; omega
    | succ i => intro hi hc hd; exact h i (by omega) (by simpa using hc) (by simpa using hd)

theorem notFullWidth_zero_cons {d c : Nat} {ds s cs : List Nat} :
    NotFullWidth 0 (d :: ds) ⟨s, c :: cs⟩ ↔ c < d ∧ NotFullWidth 0 ds ⟨s, cs⟩ := by
  unfold NotFullWidth
  constructor
  · intro h
    exact ⟨h 0 (by omega) (by simp) (by simp),
      fun i hi hc hd => h (i + 1) (by omega) (by simpa using hc) (by simpa using hd)⟩
  · rintro ⟨h0, h⟩ i
    cases i with
    | zero => intros; exact h0
    | succ i => intro hi hc hd; exact h i (by omega) (by simpa using hc) (by simpa using hd)

end Spec

end Verif
