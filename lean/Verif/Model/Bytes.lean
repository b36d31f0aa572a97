/-
Byte level vocabulary: results with undefined behaviour, fixed-width little-endian integers and
bounds-checked reads.  Host byte order is little-endian (`WORDS_BIGENDIAN` off) unless stated.
-/

namespace Verif

/-- Outcome of running a piece of the C++ code.
`err` models `RET_ERR`/`ERR_OUT` (src/H5VL_logi_err.hpp), i.e. a thrown error code;
`ub` models undefined behaviour: access outside a buffer, division by zero, null dereference,
non-termination. -/
inductive Res (α : Type) where
  | ok (a : α)
  | err
  | ub
deriving DecidableEq, Repr

namespace Res

def bind {α β : Type} : Res α → (α → Res β) → Res β
  | ok a, f => f a
  | err, _ => err
  | ub, _ => ub

instance : Monad Res where
  pure := Res.ok
  bind := Res.bind

@[simp] theorem ok_bind {α β : Type} (a : α) (f : α → Res β) : (Res.ok a >>= f) = f a := rfl
@[simp] theorem err_bind {α β : Type} (f : α → Res β) : ((Res.err : Res α) >>= f) = Res.err := rfl
@[simp] theorem ub_bind {α β : Type} (f : α → Res β) : ((Res.ub : Res α) >>= f) = Res.ub := rfl
@[simp] theorem pure_eq {α : Type} (a : α) : (pure a : Res α) = Res.ok a := rfl

end Res

abbrev Byte := UInt8

/-- `k` bytes of `n`, least significant first (C integer store on a little-endian host). -/
def leN : Nat → Nat → List Byte
  | 0, _ => []
  | k + 1, n => UInt8.ofNat (n % 256) :: leN k (n / 256)

/-- Value of a little-endian byte string (C unsigned integer load). -/
def unle : List Byte → Nat
  | [] => 0
  | b :: bs => b.toNat + 256 * unle bs

@[simp] theorem leN_length (k n : Nat) : (leN k n).length = k := by
  induction k generalizing n with
  | zero => rfl
  | succ k ih => simp [leN, ih]

theorem unle_leN (k n : Nat) : unle (leN k n) = n % 256 ^ k := by
  induction k generalizing n with
  | zero => simp [leN, unle, Nat.mod_one]
  | succ k ih =>
    simp only [leN, unle, ih]
    have h1 : (UInt8.ofNat (n % 256)).toNat = n % 256 := by
      simp [UInt8.toNat_ofNat']
    rw [h1, Nat.pow_succ, Nat.mul_comm (256 ^ k) 256, Nat.mod_mul]

theorem unle_leN_of_lt {k n : Nat} (h : n < 256 ^ k) : unle (leN k n) = n := by
  rw [unle_leN, Nat.mod_eq_of_lt h]

theorem unle_lt (bs : List Byte) : unle bs < 256 ^ bs.length := by
  induction bs with
  | nil => simp [unle]
  | cons b bs ih =>
    have := b.toNat_lt
    simp only [unle, List.length_cons, Nat.pow_succ]
    omega

theorem leN_unle (bs : List Byte) : leN bs.length (unle bs) = bs := by
  induction bs with
  | nil => rfl
  | cons b bs ih =>
    have hb := b.toNat_lt
    simp only [List.length_cons, leN, unle]
    have h1 : (b.toNat + 256 * unle bs) % 256 = b.toNat := by omega
    have h2 : (b.toNat + 256 * unle bs) / 256 = unle bs := by omega
    rw [h1, h2, ih]
    simp

/-- Two's complement value of an unsigned `w`-byte word. -/
def signed (w n : Nat) : Int := if 2 * n < 256 ^ w then (n : Int) else (n : Int) - (256 ^ w : Nat)

/-- Store of a signed integer in `w` bytes. -/
def sleN (w : Nat) (x : Int) : List Byte := leN w (x % ((256 ^ w : Nat) : Int)).toNat

/-- Load of a signed `w`-byte integer. -/
def unsle (bs : List Byte) : Int := signed bs.length (unle bs)

@[simp] theorem sleN_length (w : Nat) (x : Int) : (sleN w x).length = w := by simp [sleN]

theorem unsle_sleN {w : Nat} {x : Int} (h1 : -((256 ^ w : Nat) : Int) ≤ 2 * x)
    (h2 : 2 * x < ((256 ^ w : Nat) : Int)) : unsle (sleN w x) = x := by
  have hpos : 0 < 256 ^ w := Nat.pow_pos (by omega)
  have hM : (0 : Int) < ((256 ^ w : Nat) : Int) := by exact_mod_cast hpos
  generalize hN : 256 ^ w = N at *
  unfold unsle sleN
  rw [leN_length, unle_leN]
  unfold signed
  rw [hN]
  have hm0 := Int.emod_nonneg x (Int.ne_of_gt hM)
  have hm1 := Int.emod_lt_of_pos x hM
  have hlt : (x % (N : Int)).toNat < N := by omega
  rw [Nat.mod_eq_of_lt hlt]
  by_cases hx : 0 ≤ x
  · have : x % (N : Int) = x := Int.emod_eq_of_lt hx (by omega)
    rw [this]
    split <;> omega
  · have h3 : x % (N : Int) = x + N := by
      have : (x + N) % (N : Int) = x % (N : Int) := Int.add_emod_right _ _
      rw [← this]
      exact Int.emod_eq_of_lt (by omega) (by omega)
    rw [h3]
    split <;> omega

/-- Bounds-checked read of `n` bytes at offset `off` of a buffer. -/
def rd (buf : List Byte) (off n : Nat) : Res (List Byte) :=
  if off + n ≤ buf.length then .ok ((buf.drop off).take n) else .ub

theorem rd_append {pre mid post : List Byte} {off n : Nat} (ho : off = pre.length)
    (hn : n = mid.length) : rd (pre ++ mid ++ post) off n = .ok mid := by
  subst ho; subst hn
  unfold rd
  rw [if_pos (by simp only [List.length_append]; omega)]
  congr 1
  rw [List.append_assoc, List.drop_left, List.take_left]

/-- The words (8-byte unsigned) of a byte string whose length is a multiple of 8. -/
def words : Nat → List Byte → List Nat
  | 0, _ => []
  | k + 1, bs => unle (bs.take 8) :: words k (bs.drop 8)

/-- Consecutive 8-byte stores. -/
def putWords : List Nat → List Byte
  | [] => []
  | w :: ws => leN 8 w ++ putWords ws

@[simp] theorem putWords_length (ws : List Nat) : (putWords ws).length = 8 * ws.length := by
  induction ws with
  | nil => rfl
  | cons w ws ih => simp [putWords, ih]; omega

theorem putWords_append (a b : List Nat) : putWords (a ++ b) = putWords a ++ putWords b := by
  induction a with
  | nil => rfl
  | cons w ws ih => simp [putWords, ih]

@[simp] theorem words_length (k : Nat) (bs : List Byte) : (words k bs).length = k := by
  induction k generalizing bs with
  | zero => rfl
  | succ k ih => simp [words, ih]

theorem words_putWords (ws : List Nat) (h : ∀ w ∈ ws, w < 2 ^ 64) :
    words ws.length (putWords ws) = ws := by
  induction ws with
  | nil => rfl
  | cons w ws ih =>
    have hw : w < 256 ^ 8 := by have := h w (by simp); omega
    simp only [List.length_cons, putWords, words]
    have e1 : (leN 8 w ++ putWords ws).take 8 = leN 8 w := by
      rw [List.take_append_of_le_length (by simp), List.take_of_length_le (by simp)]
    have e2 : (leN 8 w ++ putWords ws).drop 8 = putWords ws := by
      rw [List.drop_append_of_le_length (by simp), List.drop_of_length_le (by simp)]; rfl
    rw [e1, e2, unle_leN_of_lt hw, ih (fun x hx => h x (by simp [hx]))]

/-- Bounds-checked read of `k` 8-byte words. -/
def rdWords (buf : List Byte) (off k : Nat) : Res (List Nat) := do
  let b ← rd buf off (8 * k)
  return words k b

theorem rdWords_append {pre post : List Byte} {ws : List Nat} {off k : Nat}
    (ho : off = pre.length) (hk : k = ws.length) (h : ∀ w ∈ ws, w < 2 ^ 64) :
    rdWords (pre ++ putWords ws ++ post) off k = .ok ws := by
  unfold rdWords
  rw [rd_append ho (by simp [hk])]
  simp only [Res.ok_bind, Res.pure_eq]
  rw [hk, words_putWords ws h]

end Verif
