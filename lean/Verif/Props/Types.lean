import Verif.Spec.Types

/-
Property C85: types of elements that refer to other memory.
-/

namespace Verif.Props

open Verif Verif.Types
open Verif.Spec.Types (Heap Val val Flat WF Comes)

namespace Types

theorem size_pos : (t : HType) → WF t → 0 < t.size
  | .fixed _, h => h
  | .vstr, _ => by simp [HType.size]
  | .vlen _, _ => by simp [HType.size]
  | .pair a pad b, h => by
    have := size_pos a h.1
    simp only [HType.size]
    omega

/-- The value of a flat type depends on the first bytes only and on no memory. -/
theorem flat_val (h h' : Heap) : (t : HType) → Flat t → (bs : List Byte) →
    val h t bs = val h' t (bs.take t.size)
  | .fixed n, _, bs => by
    simp only [val, HType.size, List.length_take, List.take_take, Nat.min_self]
    by_cases hn : bs.length < n
    · rw [if_pos hn, if_pos (by omega)]
    · rw [if_neg hn, if_neg (by omega)]
  | .vstr, hf, _ => hf.elim
  | .vlen _, hf, _ => hf.elim
  | .pair a pad b, hf, bs => by
    simp only [val, HType.size]
    rw [flat_val h h' a hf.1, flat_val h h' b hf.2, List.take_take, List.take_take, List.drop_take,
      Nat.min_self, Nat.min_eq_left (by omega : a.size ≤ a.size + pad + b.size),
      Nat.add_sub_cancel_left]

theorem val_length (h : Heap) : (t : HType) → (bs : List Byte) → (v : Val) → val h t bs = some v → WF t → t.size ≤ bs.length
  | .fixed n, bs, v, hv, _ => by
    simp only [val] at hv
    split at hv
    · cases hv
    · simp only [HType.size]; omega
  | .vstr, bs, v, hv, _ => by
    simp only [val] at hv
    split at hv
    · cases hv
    · simp only [HType.size]; omega
  | .vlen t, bs, v, hv, _ => by
    simp only [val] at hv
    split at hv
    · cases hv
    · simp only [HType.size]; omega
  | .pair a pad b, bs, v, hv, hw => by
    simp only [val, Option.bind_eq_some_iff, Option.map_eq_some_iff] at hv
    obtain ⟨x, _, y, hy, _⟩ := hv
    have h1 := val_length h b _ y hy hw.2
    have h2 := size_pos b hw.2
    simp only [List.length_drop] at h1
    simp only [HType.size]
    omega

/-- All memory is there and zero. -/
def zeros : Heap := fun _ => some 0

/-- No memory is there. -/
def gone : Heap := fun _ => none

theorem unle_zeros : (n : Nat) → unle (List.replicate n 0) = 0
  | 0 => rfl
  | n + 1 => by simp [List.replicate_succ, unle, unle_zeros n]

theorem mapM_zeros : (l : List Nat) → (l.mapM fun _ => (some 0 : Option Byte)) = some (List.replicate l.length 0)
  | [] => rfl
  | x :: l => by
    rw [List.mapM_cons, mapM_zeros l]
    rfl

theorem get_zeros (a n : Nat) : zeros.get a n = some (List.replicate n 0) := by
  have := mapM_zeros (List.range n)
  rw [List.length_range] at this
  exact this

theorem get_gone (a n : Nat) (h : 0 < n) : gone.get a n = none := by
  obtain ⟨k, rfl⟩ : ∃ k, n = k + 1 := ⟨n - 1, by omega⟩
  simp only [Heap.get, List.range_succ_eq_map, List.mapM_cons, gone]
  rfl

/-- Bytes of zeros denote a value of every type. -/
theorem val_zeros : (t : HType) → (n : Nat) → t.size ≤ n → ∃ v, val zeros t (List.replicate n 0) = some v
  | .fixed k, n, h => by
    simp only [HType.size] at h
    exact ⟨_, by simp only [val, List.length_replicate]; rw [if_neg (by omega)]⟩
  | .vstr, n, h => by
    simp only [HType.size] at h
    exact ⟨_, by simp only [val, List.length_replicate, List.take_replicate, unle_zeros]; rw [if_neg (by omega)]; rfl⟩
  | .vlen t, n, h => by
    simp only [HType.size] at h
    exact ⟨_, by simp only [val, List.length_replicate, List.take_replicate, unle_zeros]; rw [if_neg (by omega)]; rfl⟩
  | .pair a pad b, n, h => by
    simp only [HType.size] at h
    obtain ⟨x, hx⟩ := val_zeros a (min a.size n) (by omega)
    obtain ⟨y, hy⟩ := val_zeros b (n - (a.size + pad)) (by omega)
    exact ⟨.pair x y, by simp only [val, List.take_replicate, List.drop_replicate, hx, hy]; rfl⟩

/-- A type with a pointer inside has an element that needs memory. -/
theorem needs : (t : HType) → WF t → ¬ Flat t →
    ∃ bs v, bs.length = t.size ∧ val zeros t bs = some v ∧ val gone t bs = none
  | .fixed n, _, h => (h trivial).elim
  | .vstr, _, _ => by
    refine ⟨leN 8 1, .str [], by simp [HType.size], ?_, ?_⟩
    · rfl
    · rfl
  | .vlen t, hw, _ => by
    obtain ⟨v, hv⟩ := val_zeros t t.size (Nat.le_refl _)
    have e1 : unle ((leN 8 1 ++ leN 8 1).take 8) = 1 := by decide
    have e2 : ∀ h : Heap, val h (.vlen t) (leN 8 1 ++ leN 8 1) =
        ((List.range 1).mapM fun i => (h.get (1 + i * t.size) t.size).bind (val h t)).map .seq := fun h => rfl
    refine ⟨leN 8 1 ++ leN 8 1, .seq [v], by simp [HType.size], ?_, ?_⟩
    · simp only [e2, get_zeros, Option.bind_some, hv]
      rfl
    · simp only [e2, get_gone _ _ (size_pos t hw)]
      rfl
  | .pair a pad b, hw, hf => by
    by_cases ha : Flat a
    · have hb : ¬ Flat b := fun hb => hf ⟨ha, hb⟩
      obtain ⟨bs, v, hl, hv, hn⟩ := needs b hw.2 hb
      obtain ⟨x, hx⟩ := val_zeros a a.size (Nat.le_refl _)
      have t1 : (List.replicate (a.size + pad) 0 ++ bs).take a.size = List.replicate a.size (0 : Byte) := by
        rw [List.take_append_of_le_length (by simp), List.take_replicate, Nat.min_eq_left (by omega)]
      have t2 : (List.replicate (a.size + pad) (0 : Byte) ++ bs).drop (a.size + pad) = bs := by
        rw [List.drop_left' (by simp)]
      refine ⟨List.replicate (a.size + pad) 0 ++ bs, .pair x v, by simp [HType.size, hl], ?_, ?_⟩
      · simp only [val, t1, t2, hx, hv]; rfl
      · simp only [val, t1, t2, hn]
        cases val gone a (List.replicate a.size 0) <;> rfl
    · obtain ⟨bs, v, hl, hv, hn⟩ := needs a hw.1 ha
      obtain ⟨y, hy⟩ := val_zeros b b.size (Nat.le_refl _)
      have t1 : (bs ++ List.replicate (pad + b.size) 0).take a.size = bs := by
        rw [← hl, List.take_left]
      have t2 : (bs ++ List.replicate (pad + b.size) (0 : Byte)).drop (a.size + pad) = List.replicate b.size 0 := by
        rw [← hl, List.drop_append, List.drop_of_length_le (by omega), List.nil_append, List.drop_replicate]
        congr 1
        omega
      refine ⟨bs ++ List.replicate (pad + b.size) 0, .pair v y, by simp [HType.size, hl]; omega, ?_, ?_⟩
      · simp only [val, t1, t2, hv, hy]; rfl
      · simp only [val, t1, t2, hn]; rfl

end Types

/-- C85, where it holds: a dataset whose type has no pointers inside can be created, and a value written with H5Dwrite comes back
from H5Dread whatever has become of the application's memory in between.  (Missing: types with strings or sequences of variable
length inside; see `C85_pointers_violated`.) -/
theorem C85_flat_partial (t : HType) (hw : WF t) (hf : Flat t) :
    createType t = .ok t.size ∧ ∀ h h' buf, Comes t h h' buf := by
  refine ⟨?_, fun h h' buf v hv => ?_⟩
  · cases t with
    | vstr => exact hf.elim
    | _ => rfl
  · have hl := Types.val_length h t buf v hv hw
    refine ⟨buf.take t.size, buf.take t.size, ?_, ?_, ?_⟩
    · rw [writeElem, if_neg (by omega)]
    · rfl
    · rw [← Types.flat_val h h' t hf, hv]

/-- Two members and padding. -/
example : WF (.pair (.fixed 4) 4 (.fixed 8)) ∧ Flat (.pair (.fixed 4) 4 (.fixed 8)) :=
  ⟨⟨by show 0 < 4; decide, by show 0 < 8; decide⟩, trivial, trivial⟩

/-- Only one type of variable length is refused: a string that is not part of anything. -/
theorem C85_refused (t : HType) : createType t = .err ↔ t = .vstr := by
  cases t <;> simp [createType, HType.isVariableStr]

/-- C85 is violated by every other type with a string or sequence of variable length inside: the dataset is created, H5Dwrite
and H5Dread succeed, and the value written does not come back once the application has released its memory: the log holds the
pointers. -/
theorem C85_pointers_violated (t : HType) (hw : WF t) (hf : ¬ Flat t)
    (hs : t ≠ .vstr) :
    createType t = .ok t.size ∧ ∃ h h' buf v, val h t buf = some v ∧ writeElem t buf = .ok buf ∧
      readElem t buf = .ok buf ∧ val h' t buf = none ∧ ¬ Comes t h h' buf := by
  refine ⟨?_, ?_⟩
  · cases t with
    | vstr => exact (hs rfl).elim
    | _ => rfl
  · obtain ⟨bs, v, hl, hv, hn⟩ := Types.needs t hw hf
    have w : writeElem t bs = .ok bs := by
      rw [writeElem, if_neg (by omega), ← hl, List.take_length]
    have r : readElem t bs = .ok bs := rfl
    refine ⟨Types.zeros, Types.gone, bs, v, hv, w, r, hn, fun hc => ?_⟩
    obtain ⟨b1, b2, h1, h2, h3⟩ := hc v hv
    rw [w] at h1
    cases h1
    rw [r] at h2
    cases h2
    rw [hn] at h3
    cases h3

/-- A sequence of integers; a number and a string. -/
example : (WF (.vlen (.fixed 4)) ∧ ¬ Flat (.vlen (.fixed 4)) ∧ HType.vlen (.fixed 4) ≠ .vstr) ∧
    (WF (.pair (.fixed 8) 0 .vstr) ∧ ¬ Flat (.pair (.fixed 8) 0 .vstr) ∧ HType.pair (.fixed 8) 0 .vstr ≠ .vstr) :=
  ⟨⟨by show 0 < 4; decide, fun h => h, by decide⟩, ⟨by show 0 < 8; decide, trivial⟩, fun h => h.2, by decide⟩

end Verif.Props
