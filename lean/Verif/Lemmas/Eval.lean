import Verif.Model.File
import Verif.Lemmas.Pairs

/-
A version of the read functions that the kernel can evaluate (`trim` and `sortoffsets` are defined by
well-founded recursion), for concrete witnesses.
-/

namespace Verif

def trimF : Nat → List Seg → List Seg × List Copy
  | 0, _ => ([], [])
  | _ + 1, [] => ([], [])
  | n + 1, k :: ls =>
    let r := ls.map (trimOne k)
    let t := trimF n (r.map Prod.fst)
    (k :: t.1, r.flatMap Prod.snd ++ t.2)

theorem trimF_eq : ∀ (n : Nat) (l : List Seg), l.length ≤ n → trimF n l = trim l
  | 0, l, h => by
    have : l = [] := List.length_eq_zero_iff.mp (by omega)
    subst this
    unfold trimF trim
    rfl
  | n + 1, [], _ => by unfold trimF trim; rfl
  | n + 1, k :: ls, h => by
    unfold trimF trim
    simp only [List.length_cons] at h
    have e := trimF_eq n ((ls.map (trimOne k)).map Prod.fst) (by simp; omega)
    simp only [e]

def passF (x : Seg) : List Seg → List Seg × Bool
  | [] => ([x], false)
  | y :: r =>
    if y.f < x.f then
      let p := passF x r
      (y :: p.1, true)
    else
      let p := passF y r
      (x :: p.1, p.2)

theorem passF_eq : ∀ (x : Seg) (l : List Seg), passF x l = bubblePass (x :: l)
  | x, [] => by unfold passF bubblePass; rfl
  | x, y :: r => by
    unfold passF bubblePass
    rw [passF_eq x r, passF_eq y r]

def bubblePassF : List Seg → List Seg × Bool
  | [] => ([], false)
  | x :: l => passF x l

theorem bubblePassF_eq (l : List Seg) : bubblePassF l = bubblePass l := by
  cases l with
  | nil => unfold bubblePassF bubblePass; rfl
  | cons x l => exact passF_eq x l

def bubbleF : Nat → List Seg → Res (List Seg)
  | 0, _ => .err
  | n + 1, l => if (bubblePassF l).2 = true then bubbleF n (bubblePassF l).1 else .ok (bubblePassF l).1

theorem bubbleF_eq : ∀ {n : Nat} {l x : List Seg}, bubbleF n l = .ok x → bubbleSort l = x
  | 0, l, x, h => by simp [bubbleF] at h
  | n + 1, l, x, h => by
    unfold bubbleF at h
    rw [bubblePassF_eq] at h
    unfold bubbleSort
    by_cases hb : (bubblePass l).2 = true
    · simp only [if_pos hb] at h ⊢
      exact bubbleF_eq h
    · simp only [if_neg hb] at h ⊢
      simpa using h

def sortF (l : List Seg) : Res (List Seg) := if l.length < 16 then bubbleF 100 l else .err

theorem sortF_eq {l x : List Seg} (h : sortF l = .ok x) : sortoffsets l = x := by
  unfold sortF at h
  by_cases hl : l.length < 16
  · simp only [if_pos hl] at h
    unfold sortoffsets
    simp only [dif_pos hl]
    exact bubbleF_eq h
  · simp only [if_neg hl] at h
    simp at h

def groupSegsF (g : List Hit) : Res (List Seg × List Copy) :=
  match g with
  | [h] => do
    let s ← hitElems h
    return (s, [])
  | _ => do
    let s ← flatMapRes hitRows g
    let t ← sortF s
    return trimF t.length t

theorem groupSegsF_eq {g : List Hit} {r : List Seg × List Copy} (h : groupSegsF g = .ok r) :
    groupSegs g = .ok r := by
  unfold groupSegsF at h
  unfold groupSegs
  split at h
  · exact h
  · rename_i hne
    split
    · rename_i x
      exact absurd rfl (hne x)
    · obtain ⟨s, h1, h⟩ := Res.bind_ok h
      obtain ⟨t, h2, h⟩ := Res.bind_ok h
      rw [h1]
      simp only [Res.ok_bind]
      rw [sortF_eq h2, ← trimF_eq _ _ (Nat.le_refl _)]
      exact h

def genSegsF : List (List Hit) → Res (List Seg × List Copy)
  | [] => .ok ([], [])
  | g :: gs => do
    let a ← groupSegsF g
    let b ← genSegsF gs
    return (a.1 ++ b.1, a.2 ++ b.2)

theorem genSegsF_eq : ∀ {gs : List (List Hit)} {r : List Seg × List Copy}, genSegsF gs = .ok r →
    genSegs gs = .ok r
  | [], r, h => h
  | g :: gs, r, h => by
    unfold genSegsF at h
    unfold genSegs
    obtain ⟨a, h1, h⟩ := Res.bind_ok h
    obtain ⟨b, h2, h⟩ := Res.bind_ok h
    rw [groupSegsF_eq h1, genSegsF_eq h2]
    exact h

def readHitsF (disk : Mem) (hs : List Hit) (mem : Mem) : Res Mem := do
  let g ← genSegsF (groups hs)
  let mem ← mpiRead disk g.1 mem
  return g.2.foldl (fun m c => memcpy c m) mem

theorem readHitsF_eq {disk : Mem} {hs : List Hit} {mem mem' : Mem} (h : readHitsF disk hs mem = .ok mem') :
    readHits disk hs mem = .ok mem' := by
  unfold readHitsF at h
  unfold readHits
  obtain ⟨a, h1, h⟩ := Res.bind_ok h
  rw [genSegsF_eq h1]
  exact h

end Verif
