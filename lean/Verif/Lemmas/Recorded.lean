import Verif.Spec.Recorded
import Verif.Lemmas.EncExact
import Verif.Lemmas.Recordable

/-
The write that an encoded entry records.
-/

namespace Verif

open Spec (carry carried recBlk recorded)

theorem carry_length {ds cs : List Nat} (hl : cs.length = ds.length) : (carry ds cs).2.length = ds.length := by
  induction ds generalizing cs with
  | nil => cases cs <;> rfl
  | cons d ds ih =>
    match cs, hl with
    | c :: cs, hl => simp only [carry, List.length_cons, ih (by simpa using hl)]

theorem carry_digits {ds cs : List Nat} (hpos : ∀ x ∈ ds, 0 < x) (hl : cs.length = ds.length) : Digits ds (carry ds cs).2 := by
  induction ds generalizing cs with
  | nil => cases cs <;> trivial
  | cons d ds ih =>
    match cs, hl with
    | c :: cs, hl =>
      simp only [carry, Digits]
      exact ⟨Nat.mod_lt _ (hpos d (by simp)), ih (fun x hx => hpos x (by simp [hx])) (by simpa using hl)⟩

/-- The digits and what is carried out make up the number. -/
theorem carry_encode {ds cs : List Nat} (hl : cs.length = ds.length) :
    (carry ds cs).1 * prod ds + selEncode (dsteps ds) (carry ds cs).2 = selEncode (dsteps ds) cs := by
  induction ds generalizing cs with
  | nil =>
    match cs, hl with
    | [], _ => simp [carry, dsteps, selEncode]
  | cons d ds ih =>
    match cs, hl with
    | c :: cs, hl =>
      have h := ih (cs := cs) (by simpa using hl)
      simp only [carry, dsteps, selEncode, prod_cons]
      rw [← h]
      generalize (carry ds cs).1 = r
      generalize selEncode (dsteps ds) (carry ds cs).2 = e
      have h1 : d * ((c + r) / d) + (c + r) % d = c + r := Nat.div_add_mod _ _
      have h2 : (c + r) / d * (d * prod ds) + (c + r) % d * prod ds = (c + r) * prod ds := by
        rw [← Nat.mul_assoc, ← Nat.add_mul, Nat.mul_comm _ d, h1]
      rw [← Nat.add_assoc, h2, Nat.add_mul]
      omega

theorem carry_le {ds cs : List Nat} (hpos : ∀ x ∈ ds, 0 < x)
    (h : ∀ i, ∀ (h1 : i < cs.length) (h2 : i < ds.length), cs[i] ≤ ds[i]) : (carry ds cs).1 ≤ ds.length := by
  induction ds generalizing cs with
  | nil => cases cs <;> simp [carry]
  | cons d ds ih =>
    cases cs with
    | nil => simp [carry]
    | cons c cs =>
      have h0 : c ≤ d := h 0 (by simp) (by simp)
      have h1 := ih (cs := cs) (fun x hx => hpos x (by simp [hx]))
        (fun i a b => h (i + 1) (by simpa using a) (by simpa using b))
      have hd : 0 < d := hpos d (by simp)
      simp only [carry, List.length_cons]
      have h2 : (c + (carry ds cs).1) / d ≤ (d + ds.length) / d := Nat.div_le_div_right (by omega)
      rw [Nat.add_comm d, Nat.add_div_right _ hd] at h2
      have h3 : ds.length / d ≤ ds.length := Nat.div_le_self _ _
      omega

/-- No digit is much above a count. -/
theorem carry_mem {ds cs : List Nat} (hpos : ∀ x ∈ ds, 0 < x)
    (h : ∀ i, ∀ (h1 : i < cs.length) (h2 : i < ds.length), cs[i] ≤ ds[i]) : ∀ n ∈ (carry ds cs).2, ∃ m ∈ cs, n ≤ m + ds.length := by
  induction ds generalizing cs with
  | nil => cases cs <;> simp [carry]
  | cons d ds ih =>
    cases cs with
    | nil => simp [carry]
    | cons c cs =>
      have hp : ∀ x ∈ ds, 0 < x := fun x hx => hpos x (by simp [hx])
      have ht := fun i a b => h (i + 1) (by simpa using a) (by simpa using b)
      intro n hn
      simp only [carry, List.mem_cons, List.length_cons] at hn ⊢
      rcases hn with rfl | hn
      · have h1 := carry_le (cs := cs) hp ht
        have h2 := Nat.mod_le (c + (carry ds cs).1) d
        exact ⟨c, .inl rfl, by omega⟩
      · obtain ⟨m, m1, m2⟩ := ih (cs := cs) hp ht n hn
        exact ⟨m, .inr m1, by omega⟩

theorem carry_same {ds cs : List Nat} (h : Digits ds cs) : carry ds cs = (0, cs) := by
  induction ds generalizing cs with
  | nil => cases cs <;> simp_all [Digits, carry]
  | cons d ds ih =>
    cases cs with
    | nil => simp [Digits] at h
    | cons c cs =>
      simp only [Digits] at h
      simp only [carry, ih h.2, Nat.add_zero, Nat.div_eq_of_lt h.1, Nat.mod_eq_of_lt h.1]

theorem carried_length {ds cs : List Nat} (hl : cs.length = ds.length) : (carried ds cs).length = cs.length := by
  match ds, cs, hl with
  | [], [], _ => rfl
  | d :: ds, c :: cs, hl =>
    simp only [carried, List.length_cons, carry_length (show cs.length = ds.length by simpa using hl)]
    simpa using hl.symm

theorem carried_tail {ds cs : List Nat} (hpos : ∀ x ∈ ds, 0 < x) (hl : cs.length = ds.length) :
    Digits ds.tail (carried ds cs).tail := by
  match ds, cs, hl with
  | [], [], _ => trivial
  | d :: ds, c :: cs, hl =>
    exact carry_digits (ds := ds) (cs := cs) (fun x hx => hpos x (by simp [hx])) (by simpa using hl)

theorem carried_encode {ds cs : List Nat} (hl : cs.length = ds.length) :
    selEncode (dsteps ds) (carried ds cs) = selEncode (dsteps ds) cs := by
  match ds, cs, hl with
  | [], [], _ => rfl
  | d :: ds, c :: cs, hl =>
    have h := carry_encode (ds := ds) (cs := cs) (by simpa using hl)
    simp only [carried, dsteps, selEncode, Nat.add_mul]
    omega

theorem carried_same {ds cs : List Nat} (h : Digits ds.tail cs.tail) : carried ds cs = cs := by
  match ds, cs with
  | [], _ => rfl
  | _ :: _, [] => rfl
  | d :: ds, c :: cs =>
    have h' : carry ds cs = (0, cs) := carry_same h
    simp only [carried, h', Nat.add_zero]

/-- A count that reaches its extent leaves a 0. -/
theorem carried_zero {ds cs : List Nat} (hpos : ∀ x ∈ ds, 0 < x) (hl : cs.length = ds.length)
    (h : ∀ i, ∀ (h1 : i < cs.length) (h2 : i < ds.length), cs[i] ≤ ds[i]) (hn : ¬ Digits ds.tail cs.tail) :
    0 ∈ carried ds cs := by
  refine selDecode_lost hl h hn ?_
  rw [← carried_encode hl]
  exact selDecode_selEncode ((carried_length hl).trans hl) (carried_tail hpos hl)

/-- Every number is below its extent or, in the first place, not much above the count. -/
theorem carried_le {ds cs : List Nat} (hpos : ∀ x ∈ ds, 0 < x) (hl : cs.length = ds.length)
    (h : ∀ i, ∀ (h1 : i < cs.length) (h2 : i < ds.length), cs[i] ≤ ds[i]) :
    (carried ds cs).headD 0 ≤ cs.headD 0 + ds.length ∧ cs.headD 0 ≤ (carried ds cs).headD 0 := by
  match ds, cs, hl with
  | [], [], _ => simp [carried]
  | d :: ds, c :: cs, hl =>
    have := carry_le (ds := ds) (cs := cs) (fun x hx => hpos x (by simp [hx]))
      (fun i a b => h (i + 1) (by simpa using a) (by simpa using b))
    simp only [carried, List.headD_cons, List.length_cons]
    omega

theorem carried_mem {ds cs : List Nat} (hpos : ∀ x ∈ ds, 0 < x) (hl : cs.length = ds.length)
    (h : ∀ i, ∀ (h1 : i < cs.length) (h2 : i < ds.length), cs[i] ≤ ds[i]) : ∀ n ∈ carried ds cs, ∃ m ∈ cs, n ≤ m + ds.length := by
  match ds, cs, hl with
  | [], [], _ => simp [carried]
  | d :: ds, c :: cs, hl =>
    have hp : ∀ x ∈ ds, 0 < x := fun x hx => hpos x (by simp [hx])
    have ht := fun i a b => h (i + 1) (by simpa using a) (by simpa using b)
    intro n hn
    simp only [carried, List.mem_cons, List.length_cons] at hn ⊢
    rcases hn with rfl | hn
    · have h1 := carry_le (cs := cs) hp ht
      exact ⟨c, .inl rfl, by omega⟩
    · obtain ⟨m, m1, m2⟩ := carry_mem (cs := cs) hp ht n hn
      exact ⟨m, .inr m1, by omega⟩

/-- One dimension: nothing is carried. -/
theorem carried_one {ds cs : List Nat} (h : ds.length ≤ 1) (hl : cs.length = ds.length) : carried ds cs = cs := by
  refine carried_same ?_
  match ds, cs, hl with
  | [], [], _ => trivial
  | [_], [_], _ => trivial
  | _ :: _ :: _, _, _ => simp at h

/-! ### Blocks -/

section
variable {k : Nat} {dims : List Nat} {b : Blk}

theorem recBlk_drop (hk : k ≤ b.count.length) : (recBlk k dims b).count.drop k = carried (dims.drop k) (b.count.drop k) := by
  unfold recBlk
  rw [List.drop_append_of_le_length (by simp [hk]), List.drop_of_length_le (by simp; omega), List.nil_append]

theorem recBlk_length (hl : b.count.length = dims.length) : (recBlk k dims b).count.length = b.count.length := by
  simp only [recBlk, List.length_append, List.length_take]
  rw [carried_length (by simp [hl]), List.length_drop]
  omega

theorem recBlk_same (h : Digits (dims.drop k).tail (b.count.drop k).tail) : recBlk k dims b = b := by
  unfold recBlk
  rw [carried_same h, List.take_append_drop]

theorem recBlk_zero (hpos : ∀ x ∈ dims, 0 < x) (hb : Spec.InExtent dims b)
    (hn : ¬ Digits (dims.drop k).tail (b.count.drop k).tail) : 0 ∈ (recBlk k dims b).count := by
  obtain ⟨h1, h2, h3⟩ := hb
  refine List.mem_append_right _ (carried_zero (fun x hx => hpos x (List.mem_of_mem_drop hx)) (by simp [h2]) ?_ hn)
  intro i a1 a2
  simp only [List.getElem_drop, List.length_drop] at a1 a2 ⊢
  have := h3 (k + i) (by omega) (by omega) (by omega)
  omega

theorem recBlk_mem (hpos : ∀ x ∈ dims, 0 < x) (hb : Spec.InExtent dims b) :
    ∀ n ∈ (recBlk k dims b).count, ∃ m ∈ b.count, n ≤ m + dims.length := by
  obtain ⟨h1, h2, h3⟩ := hb
  intro n hn
  rcases List.mem_append.mp hn with hn | hn
  · exact ⟨n, List.mem_of_mem_take hn, by omega⟩
  · obtain ⟨m, m1, m2⟩ := carried_mem (fun x hx => hpos x (List.mem_of_mem_drop hx)) (by simp [h2]) (fun i a1 a2 => by
      simp only [List.getElem_drop, List.length_drop] at a1 a2 ⊢
      have := h3 (k + i) (by omega) (by omega) (by omega)
      omega) n hn
    refine ⟨m, List.mem_of_mem_drop m1, ?_⟩
    rw [List.length_drop] at m2
    omega

end

/-! ### What a write with empty blocks leaves in the cells -/

open Spec (InBlk inBox idxIn positions dataOffset cellByte)

/-- `positions` block by block. -/
def posFrom (e : Nat) : Nat → List Blk → List Nat → List Nat
  | _, [], _ => []
  | acc, b :: bs, x => (if InBlk b x then [e * acc + e * idxIn b x] else []) ++ posFrom e (acc + b.size) bs x

theorem posFrom_eq (e acc : Nat) (bs : List Blk) (x : List Nat) : posFrom e acc bs x =
    (bs.mapIdx (fun i b => if InBlk b x then [e * (acc + ((bs.take i).map Blk.size).sum) + e * idxIn b x] else [])).flatten := by
  induction bs generalizing acc with
  | nil => rfl
  | cons b bs ih =>
    rw [List.mapIdx_cons, List.flatten_cons, posFrom, ih]
    simp only [List.take_zero, List.map_nil, List.sum_nil, Nat.add_zero, List.take_succ_cons, List.map_cons, List.sum_cons,
      Nat.add_assoc]

theorem positions_from (e : Nat) (bs : List Blk) (x : List Nat) : positions e bs x = posFrom e 0 bs x := by
  rw [posFrom_eq]
  simp only [positions, dataOffset, Nat.zero_add]

theorem inBox_zero {ss cs x : List Nat} (h : 0 ∈ cs) : inBox ss cs x = false := by
  induction cs generalizing ss x with
  | nil => simp at h
  | cons c cs ih =>
    match ss, x with
    | [], _ => simp [inBox]
    | _ :: _, [] => simp [inBox]
    | s :: ss, y :: x =>
      simp only [inBox]
      rcases List.mem_cons.mp h with h | h
      · subst h
        rcases Nat.lt_or_ge y s with h1 | h1
        · simp [Nat.not_le.mpr h1]
        · simp [Nat.not_lt.mpr h1]
      · rw [ih h, Bool.and_false]

/-- Blocks with a count 0 can be left out. -/
theorem posFrom_filter (e acc : Nat) {bs : List Blk} {f : Blk → Blk} {p : Blk → Bool} (x : List Nat)
    (h1 : ∀ b ∈ bs, p b = true → f b = b) (h2 : ∀ b ∈ bs, p b = false → 0 ∈ (f b).count) :
    posFrom e acc (bs.map f) x = posFrom e acc (bs.filter p) x := by
  induction bs generalizing acc with
  | nil => rfl
  | cons b bs ih =>
    have ih' := fun acc => ih acc (fun b hb => h1 b (List.mem_cons_of_mem _ hb)) (fun b hb => h2 b (List.mem_cons_of_mem _ hb))
    rw [List.map_cons, List.filter_cons, posFrom]
    cases hp : p b with
    | true =>
      rw [h1 b (by simp) hp, ih', if_pos rfl, posFrom]
    | false =>
      have h0 := h2 b (by simp) hp
      have hs : (f b).size = 0 := prod_zero_of_mem h0
      have hi : ¬ InBlk (f b) x := by unfold InBlk; rw [inBox_zero h0]; simp
      rw [if_neg hi, hs, ih', List.nil_append, Nat.add_zero]
      simp

end Verif
