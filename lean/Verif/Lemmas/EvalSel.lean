import Verif.Lemmas.H5List
import Mathlib.Data.List.Sort

/-
One behaviour of `std::sort`, and a version of the constructor that only continues while all keys are different; then its
result does not depend on `std::sort`.
-/

namespace Verif
open Spec

/-- Lexicographic order on all lists. -/
def lexLeF : List Nat → List Nat → Bool
  | [], _ => true
  | _ :: _, [] => false
  | a :: as, b :: bs => if a < b then true else if b < a then false else lexLeF as bs

theorem lexLeF_total : ∀ a b : List Nat, lexLeF a b = true ∨ lexLeF b a = true
  | [], _ => by simp [lexLeF]
  | _ :: _, [] => by simp [lexLeF]
  | a :: as, b :: bs => by
    rcases Nat.lt_trichotomy a b with h | h | h
    · left; simp [lexLeF, h]
    · subst h; simpa [lexLeF] using lexLeF_total as bs
    · right; simp [lexLeF, h]

theorem lexLeF_trans : ∀ {a b c : List Nat}, lexLeF a b = true → lexLeF b c = true → lexLeF a c = true
  | [], _, _, _, _ => by simp [lexLeF]
  | _ :: _, [], _, h, _ => by simp [lexLeF] at h
  | _ :: _, _ :: _, [], _, h => by simp [lexLeF] at h
  | a :: as, b :: bs, c :: cs, h1, h2 => by
    have ih := @lexLeF_trans as bs cs
    simp only [lexLeF] at h1 h2 ⊢
    by_cases hab : a < b
    · by_cases hbc : c < b
      · rw [if_neg (by omega), if_pos hbc] at h2
        simp at h2
      · rw [if_pos (by omega)]
    · by_cases hba : b < a
      · rw [if_neg hab, if_pos hba] at h1
        simp at h1
      · rw [if_neg hab, if_neg hba] at h1
        have : a = b := by omega
        subst this
        by_cases hac : a < c
        · rw [if_pos hac]
        · rw [if_neg hac] at h2 ⊢
          by_cases hca : c < a
          · rw [if_pos hca] at h2
            simp at h2
          · rw [if_neg hca] at h2 ⊢
            exact ih h1 h2

theorem lexLeF_lexLt : ∀ {a b : List Nat}, lexLeF a b = true → lexLt b a = false
  | [], [], _ => rfl
  | [], _ :: _, _ => rfl
  | _ :: _, [], h => by simp [lexLeF] at h
  | a :: as, b :: bs, h => by
    have ih := @lexLeF_lexLt as bs
    simp only [lexLeF] at h
    simp only [lexLt]
    split at h
    · rename_i h1
      rw [if_neg (by omega), if_pos h1]
    · split at h
      · simp at h
      · rename_i h1 h2
        rw [if_neg h2, if_neg h1]
        exact ih h

/-- Insertion sort of the indices. -/
def isort (ks : List (List Nat)) : List Nat :=
  (List.range ks.length).insertionSort (fun i j => lexLeF (ks.getD i []) (ks.getD j []) = true)

theorem isort_isSort : IsSort isort := by
  intro ks
  refine ⟨List.perm_insertionSort _ _, ?_⟩
  have : Std.Total (fun i j : Nat => lexLeF (ks.getD i []) (ks.getD j []) = true) := ⟨fun i j => lexLeF_total _ _⟩
  have : IsTrans Nat (fun i j : Nat => lexLeF (ks.getD i []) (ks.getD j []) = true) :=
    ⟨fun i j k h1 h2 => lexLeF_trans h1 h2⟩
  exact (List.pairwise_insertionSort (fun i j : Nat => lexLeF (ks.getD i []) (ks.getD j []) = true) _).imp
    (fun h => lexLeF_lexLt h)

/-- All keys are different. -/
def distinctKeys (ks : List (List Nat)) : Bool :=
  decide ((isort ks).Pairwise (fun i j => lexLt (ks.getD i []) (ks.getD j []) = true))

theorem srt_eq {srt : List (List Nat) → List Nat} (hs : IsSort srt) {ks : List (List Nat)} (h : distinctKeys ks = true) :
    srt ks = isort ks := by
  have h' := of_decide_eq_true h
  refine List.Perm.eq_of_pairwise (le := fun i j => lexLt (ks.getD j []) (ks.getD i []) = false) ?_ (hs ks).2
    (isort_isSort ks).2 ((hs ks).1.trans (isort_isSort ks).1.symm)
  intro i j hi hj h1 h2
  by_contra hne
  have hj' : j ∈ isort ks := hj
  have hi' : i ∈ isort ks := ((hs ks).1.trans (isort_isSort ks).1.symm).mem_iff.mp hi
  have hij : ∀ {a b : Nat}, a ∈ isort ks → b ∈ isort ks → a ≠ b →
      lexLt (ks.getD a []) (ks.getD b []) = true ∨ lexLt (ks.getD b []) (ks.getD a []) = true := by
    intro a b ha hb hab
    have hsym : (isort ks).Pairwise (fun i j => lexLt (ks.getD i []) (ks.getD j []) = true ∨
        lexLt (ks.getD j []) (ks.getD i []) = true) := h'.imp Or.inl
    have : Std.Symm (fun i j : Nat => lexLt (ks.getD i []) (ks.getD j []) = true ∨
        lexLt (ks.getD j []) (ks.getD i []) = true) := ⟨fun _ _ h => h.symm⟩
    exact hsym.forall ha hb hab
  rcases hij hi' hj' hne with h | h
  · rw [h] at h2; simp at h2
  · rw [h] at h1; simp at h1

/-! ### The constructor while all keys are different -/

def sortblocksN (off len : Nat) (a : Arr) : Res Arr :=
  if distinctKeys ((a.view off len).map Prod.fst) then sortblocks isort off len a else .err

def fillGroupN (ndim : Nat) (st : Sel) (g : List CRow) : Res Sel :=
  if g.length = 1 then
    .ok ⟨(fill st.arr st.nsel (g.map toCount)).1, st.nsel + 1⟩
  else do
    let rows ← breakRows g
    let f := fill st.arr st.nsel rows
    let a ← sortblocksN st.nsel rows.length f.1
    let m := mergeBlocks false ndim st.nsel a rows.length
    pure ⟨m.1, st.nsel + m.2⟩

def fillGroupsN (ndim : Nat) : Sel → List (List CRow) → Res Sel
  | st, [] => .ok st
  | st, g :: gs => do
    let st' ← fillGroupN ndim st g
    fillGroupsN ndim st' gs

def fromBlocksN (ndim : Nat) (bs : List CRow) : Res Sel := do
  let m1 := mergeBlocks true ndim 0 (Arr.fresh bs) bs.length
  let a ← sortblocksN 0 m1.2 m1.1
  let m2 := mergeBlocks true ndim 0 a m1.2
  let sel ← fillGroupsN ndim ⟨Arr.fresh [], 0⟩ (groupRows (m2.1.view 0 m2.2))
  let _ ← freeFirst m2.1
  pure sel

theorem sortblocksN_ok {srt : List (List Nat) → List Nat} (hs : IsSort srt) {off len : Nat} {a b : Arr}
    (h : sortblocksN off len a = .ok b) : sortblocks srt off len a = .ok b := by
  unfold sortblocksN at h
  split at h
  · rename_i hd
    unfold sortblocks at h ⊢
    rw [srt_eq hs hd]
    exact h
  · simp at h

theorem fillGroupN_ok {srt : List (List Nat) → List Nat} (hs : IsSort srt) {n : Nat} {st st' : Sel} {g : List CRow}
    (h : fillGroupN n st g = .ok st') : fillGroup srt n st g = .ok st' := by
  unfold fillGroupN at h
  unfold fillGroup
  split
  · rename_i h1
    rw [if_pos h1] at h
    exact h
  · rename_i h1
    rw [if_neg h1] at h
    obtain ⟨rows, e, h⟩ := Res.bind_ok h
    obtain ⟨a, e2, h⟩ := Res.bind_ok h
    simp only [e, Res.ok_bind, sortblocksN_ok hs e2]
    exact h

theorem fillGroupsN_ok {srt : List (List Nat) → List Nat} (hs : IsSort srt) {n : Nat} : ∀ {gs : List (List CRow)} {st st' : Sel},
    fillGroupsN n st gs = .ok st' → fillGroups srt n st gs = .ok st'
  | [], _, _, h => h
  | g :: gs, st, st', h => by
    unfold fillGroupsN at h
    unfold fillGroups
    obtain ⟨s1, e, h⟩ := Res.bind_ok h
    rw [fillGroupN_ok hs e]
    exact fillGroupsN_ok hs h

theorem fromBlocksN_ok {srt : List (List Nat) → List Nat} (hs : IsSort srt) {n : Nat} {bs : List CRow} {sel : Sel}
    (h : fromBlocksN n bs = .ok sel) : fromBlocks srt n bs = .ok sel := by
  unfold fromBlocksN at h
  unfold fromBlocks
  obtain ⟨a, e, h⟩ := Res.bind_ok h
  obtain ⟨s, e2, h⟩ := Res.bind_ok h
  simp only [sortblocksN_ok hs e, Res.ok_bind, fillGroupsN_ok hs e2]
  exact h

end Verif
