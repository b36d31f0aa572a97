import Verif.Spec.File
import Verif.Lemmas.Run

namespace Verif

open Spec (AW)

theorem writeAt_out {disk : Mem} {off a : Nat} {bs : List Byte} (h : a < off ∨ off + bs.length ≤ a) :
    writeAt disk off bs a = disk a := by
  unfold writeAt
  split
  · rw [List.getElem?_eq_none (by omega)]; rfl
  · rfl

theorem writeAt_in {disk : Mem} {off : Nat} {bs : List Byte} {i : Nat} (h : i < bs.length) :
    writeAt disk off bs (off + i) = bs[i] := by
  unfold writeAt
  rw [if_pos (by omega)]
  have : off + i - off = i := by omega
  simp only [this]
  rw [List.getElem?_eq_getElem h]; rfl

theorem writeAt_append (disk : Mem) (off : Nat) (a b : List Byte) :
    writeAt (writeAt disk off a) (off + a.length) b = writeAt disk off (a ++ b) := by
  funext x
  by_cases h1 : x < off
  · rw [writeAt_out (Or.inl (by omega)), writeAt_out (Or.inl h1), writeAt_out (Or.inl h1)]
  · by_cases h2 : x < off + a.length
    · obtain ⟨i, rfl⟩ : ∃ i, x = off + i := ⟨x - off, by omega⟩
      rw [writeAt_out (Or.inl h2), writeAt_in (by omega), writeAt_in (by simp; omega),
        List.getElem_append_left (by omega)]
    · by_cases h3 : x < off + a.length + b.length
      · obtain ⟨i, rfl⟩ : ∃ i, x = off + a.length + i := ⟨x - (off + a.length), by omega⟩
        rw [writeAt_in (by omega)]
        have : off + a.length + i = off + (a.length + i) := by omega
        rw [this, writeAt_in (by simp; omega), List.getElem_append_right (by omega)]
        congr 1; omega
      · rw [writeAt_out (Or.inr (by omega)), writeAt_out (Or.inr (by omega)),
          writeAt_out (Or.inr (by simp; omega))]

theorem writeAt_nil (disk : Mem) (off : Nat) : writeAt disk off [] = disk := by
  funext x
  exact writeAt_out (by simp; omega)

/-- Writes at consecutive places amount to one write. -/
theorem foldl_writeAt {α : Type} (f : α → List Byte) (base : Nat) : ∀ (l : List α) (acc : Nat) (disk : Mem),
    (l.zip (exscan acc (l.map (fun x => (f x).length)))).foldl
      (fun d p => writeAt d (p.2 + base) (f p.1)) disk = writeAt disk (acc + base) (l.flatMap f)
  | [], acc, disk => by simp [exscan, writeAt_nil]
  | x :: l, acc, disk => by
    simp only [List.map_cons, exscan, List.zip_cons_cons, List.foldl_cons, List.flatMap_cons]
    rw [foldl_writeAt f base l, ← writeAt_append]
    congr 1
    omega

@[simp] theorem fileBytes_length (disk : Mem) (addr n : Nat) : (fileBytes disk addr n).length = n := by
  simp [fileBytes]

theorem fileBytes_getElem {disk : Mem} {addr n i : Nat} (h : i < (fileBytes disk addr n).length) :
    (fileBytes disk addr n)[i] = disk (addr + i) := by
  simp [fileBytes]

theorem fileBytes_congr {disk disk' : Mem} {addr n : Nat}
    (h : ∀ a, addr ≤ a → a < addr + n → disk a = disk' a) :
    fileBytes disk addr n = fileBytes disk' addr n := by
  unfold fileBytes
  apply List.map_congr_left
  intro i hi
  rw [List.mem_range] at hi
  exact h _ (by omega) (by omega)

theorem fileBytes_writeAt (disk : Mem) (off : Nat) (bs : List Byte) :
    fileBytes (writeAt disk off bs) off bs.length = bs := by
  apply List.ext_getElem (by simp)
  intro i h1 h2
  rw [fileBytes_getElem, writeAt_in]

theorem fileBytes_out {disk : Mem} {off : Nat} {bs : List Byte} {addr n : Nat} (h : addr + n ≤ off) :
    fileBytes (writeAt disk off bs) addr n = fileBytes disk addr n :=
  fileBytes_congr (fun a _ h2 => writeAt_out (Or.inl (by omega)))

/-- Part of a range. -/
theorem fileBytes_sub {disk : Mem} {addr n : Nat} {pre mid post : List Byte}
    (h : fileBytes disk addr n = pre ++ mid ++ post) :
    fileBytes disk (addr + pre.length) mid.length = mid := by
  have hl := congrArg List.length h
  simp only [fileBytes_length, List.length_append] at hl
  apply List.ext_getElem (by simp)
  intro i h1 h2
  rw [fileBytes_getElem]
  have h3 : pre.length + i < (fileBytes disk addr n).length := by rw [fileBytes_length]; omega
  have := fileBytes_getElem h3
  rw [Nat.add_assoc, ← this]
  simp only [h]
  rw [List.getElem_append_left (by simp; omega), List.getElem_append_right (by omega)]
  simp

theorem exscan_length (acc : Nat) (l : List Nat) : (exscan acc l).length = l.length := by
  induction l generalizing acc with
  | nil => rfl
  | cons n l ih => simp [exscan, ih]

theorem inscan_length (acc : Nat) (l : List Nat) : (inscan acc l).length = l.length := by
  induction l generalizing acc with
  | nil => rfl
  | cons n l ih => simp [inscan, ih]

theorem inscan_getElem (l : List Nat) : ∀ (acc i : Nat) (h : i < (inscan acc l).length),
    (inscan acc l)[i] = acc + (l.take (i + 1)).sum := by
  induction l with
  | nil => intro acc i h; simp [inscan] at h
  | cons n l ih =>
    intro acc i h
    cases i with
    | zero => simp [inscan]
    | succ i =>
      simp only [inscan, List.getElem_cons_succ]
      rw [ih (acc + n) i (by simpa [inscan] using h)]
      simp [Nat.add_assoc]

theorem inscan_le {l : List Nat} {acc x : Nat} (h : x ∈ inscan acc l) : x ≤ acc + l.sum := by
  induction l generalizing acc with
  | nil => simp [inscan] at h
  | cons n l ih =>
    simp only [inscan, List.mem_cons] at h
    rcases h with rfl | h
    · simp
    · have := ih h
      simp only [List.sum_cons]
      omega

/-- Location of a request. -/
def loc (x : AW × WReq) : AW × Int := (x.1, x.2.foff)

/-- Total size of the data of some writes. -/
def dsum (xs : List (AW × WReq)) : Nat := (xs.map (fun x => x.1.data.length)).sum

@[simp] theorem dsum_nil : dsum [] = 0 := rfl
@[simp] theorem dsum_cons (x : AW × WReq) (xs) : dsum (x :: xs) = x.1.data.length + dsum xs := by
  simp [dsum]
@[simp] theorem dsum_append (xs ys : List (AW × WReq)) : dsum (xs ++ ys) = dsum xs + dsum ys := by
  simp [dsum]

/-- Consecutive places from `base` on. -/
def relocate : Nat → List (AW × WReq) → List (AW × WReq)
  | _, [] => []
  | base, x :: xs => (x.1, { x.2 with foff := base }) :: relocate (base + x.1.data.length) xs

theorem relocate_append (base : Nat) (xs ys : List (AW × WReq)) :
    relocate base (xs ++ ys) = relocate base xs ++ relocate (base + dsum xs) ys := by
  induction xs generalizing base with
  | nil => simp [relocate]
  | cons x xs ih => simp [relocate, ih, Nat.add_assoc]

theorem relocate_same (base : Nat) (xs : List (AW × WReq)) :
    List.Forall₂ SameReq xs (relocate base xs) := by
  induction xs generalizing base with
  | nil => exact List.Forall₂.nil
  | cons x xs ih => exact List.Forall₂.cons ⟨rfl, rfl⟩ (ih _)

theorem relocate_fst (base : Nat) (xs : List (AW × WReq)) :
    (relocate base xs).map (·.1) = xs.map (·.1) := by
  induction xs generalizing base with
  | nil => rfl
  | cons x xs ih => simp [relocate, ih]

theorem localOffs_relocate {xs : List (AW × WReq)} (h : ∀ x ∈ xs, x.2.data = x.1.data) (acc off : Nat) :
    (localOffs acc (xs.map (·.2))).map (fun r => { r with foff := r.foff + off }) =
      (relocate (acc + off) xs).map (·.2) := by
  induction xs generalizing acc with
  | nil => rfl
  | cons x xs ih =>
    have h1 := h x (by simp)
    simp only [List.map_cons, localOffs, relocate]
    rw [ih (fun y hy => h y (by simp [hy])), h1]
    have e : acc + x.1.data.length + off = acc + off + x.1.data.length := by omega
    rw [e]
    rfl

theorem localOffs_same {xs : List (AW × WReq)} (acc : Nat) :
    ∃ ys, List.Forall₂ SameReq xs ys ∧ localOffs acc (xs.map (·.2)) = ys.map (·.2) := by
  induction xs generalizing acc with
  | nil => exact ⟨[], List.Forall₂.nil, rfl⟩
  | cons x xs ih =>
    obtain ⟨ys, h1, h2⟩ := ih (acc + x.2.data.length)
    exact ⟨(x.1, { x.2 with foff := acc }) :: ys, List.Forall₂.cons ⟨rfl, rfl⟩ h1, by
      simp [localOffs, h2]⟩

/-- Places assigned by `relocate`. -/
theorem relocate_layout (xs : List (AW × WReq)) : ∀ (base : Nat),
    ((relocate base xs).map loc).Pairwise (fun x y => x.2 + (x.1.data.length : Int) ≤ y.2) ∧
    ∀ x ∈ (relocate base xs).map loc, (base : Int) ≤ x.2 ∧
      x.2 + (x.1.data.length : Int) ≤ (base + dsum xs : Nat) := by
  induction xs with
  | nil => intro base; simp [relocate]
  | cons x xs ih =>
    intro base
    obtain ⟨h1, h2⟩ := ih (base + x.1.data.length)
    simp only [relocate, List.map_cons, List.pairwise_cons, dsum_cons]
    refine ⟨⟨?_, h1⟩, ?_⟩
    · intro y hy
      have := (h2 y hy).1
      simp only [loc]
      omega
    · intro y hy
      rcases List.mem_cons.mp hy with rfl | hy
      · simp only [loc]; omega
      · have := h2 y hy; omega

/-- The data written at those places. -/
theorem relocate_stored (xs : List (AW × WReq)) : ∀ (base : Nat) (disk : Mem),
    Spec.Stored (writeAt disk base (xs.flatMap (fun x => x.1.data))) ((relocate base xs).map loc) := by
  induction xs with
  | nil => intro base disk x hx; simp [relocate] at hx
  | cons x xs ih =>
    intro base disk y hy i hi
    simp only [relocate, List.map_cons, List.mem_cons] at hy
    rw [List.flatMap_cons]
    rcases hy with rfl | hy
    · simp only [loc, Int.toNat_natCast] at hi ⊢
      rw [writeAt_in (by simp; omega), List.getElem_append_left hi]
    · rw [← writeAt_append]
      exact ih _ _ y hy i hi

end Verif
