import Verif.Lemmas.WMem

/-
C93: the record of a write fits the memory allocated for it, and H5Dwrite_n refuses numbers of blocks that make no sense.
-/

namespace Verif.Props
open _root_.Verif.WMem

/-- **C93, records.** A write of the first `n` blocks of the arrays: nothing is stored outside the memory that was allocated, and afterwards the
memory is exactly the entry, with no byte left uninitialised. -/
theorem C93_record {lim : Nat} {cfg : Cfg} {d : DInfo} {n : Nat} {arr bs : List Blk} (did : Nat) (hn : n ≤ arr.length) (hb : arr.take n = bs)
    (h : Spec.SelOK d bs) (hi : 2 * d.ndim * n < 2 ^ 31) (mo : Nat) (foff : Int) (data : List Byte)
    (hl : (plainReq cfg d did bs mo foff data).bytes.length ≤ lim) :
    (make lim cfg d did n arr).bind (fun r => place r data.length foff) =
      .ok ((plainReq cfg d did bs mo foff data).bytes.map some) := by
  rw [make_eq hn hb h hi, okBind, place_image mo]
  refine Nat.le_trans (Nat.le_of_eq ?_) hl
  rw [WReq.bytes, Hdr.bytes, WReq.metaSize, WReq.selOff]
  show 28 + (if (wreqFlags cfg d bs).recd then 8 else 0) + (selBytes cfg d bs).length = (_ ++ (if (wreqFlags cfg d bs).recd then _ else _) ++
    (selBytes cfg d bs)).length
  cases (wreqFlags cfg d bs).recd <;> simp <;> omega

/-- **C93, references.** A request that is replaced by a reference to an earlier one: the record number of both is loaded where it is, nothing is
stored outside the memory, and the memory after `resize` is exactly the entry with the reference. -/
theorem C93_reference {lim : Nat} {cfg : Cfg} {d d' : DInfo} {n n' : Nat} {arr arr' bs bs' : List Blk} (did did' : Nat)
    (hn : n ≤ arr.length) (hb : arr.take n = bs) (h : Spec.SelOK d bs) (hi : 2 * d.ndim * n < 2 ^ 31)
    (hn' : n' ≤ arr'.length) (hb' : arr'.take n' = bs') (h' : Spec.SelOK d' bs') (hi' : 2 * d'.ndim * n' < 2 ^ 31)
    (h8 : 8 < (mkWReq cfg d did bs 0 []).selBuf.length)
    (hl : (mkWReq cfg d did bs 0 []).metaSize ≤ lim) (hl' : (mkWReq cfg d' did' bs' 0 []).metaSize ≤ lim)
    (mo mo' mdsize : Nat) (foff : Int) (data data' : List Byte) :
    ((make lim cfg d did n arr).bind fun r => (make lim cfg d' did' n' arr').bind fun k =>
      (refer r k ((mo' : Int) - mdsize)).bind fun r => place r data.length foff) =
      .ok (({ mkRef (mkWReq cfg d did bs mo data) (mkWReq cfg d' did' bs' mo' data') mdsize with foff := foff } : WReq).bytes.map some) := by
  rw [make_eq hn hb h hi hl, okBind, make_eq hn' hb' h' hi' hl', okBind]
  exact refer_image h h' h8 mo mo' mdsize foff data data'

/-- Negative numbers of blocks: no block is looked at. -/
theorem make_neg {n : Int} (hn : n < 0) (lim : Nat) (cfg : Cfg) (d : DInfo) (did : Nat) (arr : List Blk) :
    make lim cfg d did n arr =
      ((asInt ((d.ndim : Int) * n)).bind fun a => asInt (a * 2)).bind fun w =>
        if lim < mbsize ⟨false, false, false, false, false⟩ w then .err
        else (hdrStores ⟨false, false, false, false, false⟩ did (mbsize ⟨false, false, false, false, false⟩ w) 0
          (List.replicate (mbsize ⟨false, false, false, false, false⟩ w) none)).bind fun m => .ok ⟨m, 28, ⟨false, false, false, false, false⟩⟩ := by
  have e1 : n.toNat = 0 := by omega
  have e2 : recOf d [] = none := by unfold recOf; split <;> rfl
  have e3 : flagsOf cfg d n [] = ⟨false, false, false, false, false⟩ := by
    unfold flagsOf
    have : ¬ (1 < n) := by omega
    simp [e2, this]
  unfold make
  rw [if_neg (by omega), e1, List.take_zero]
  simp only [e3, e2, wordsOf, selStores, storeAll, Bool.false_eq_true, if_false, List.map_nil, List.append_nil, Option.getD_none,
    Int.sub_zero, Nat.add_zero, okBind]

/-- **C93, negative numbers.** Except for -1 block of a dataset with one dimension and for scalar datasets, H5Dwrite_n with a negative number of
blocks fails: what it would allocate is more than any process has. -/
theorem C93_negative {lim : Nat} {n : Int} (cfg : Cfg) {d : DInfo} (did : Nat) (arr : List Blk) (hn : n < 0) (hd : d.ndim ≠ 0)
    (h1 : (d.ndim : Int) * n ≠ -1) (hi : -2147483648 ≤ (d.ndim : Int) * n * 2) (hl : lim < 2 ^ 63) :
    make lim cfg d did n arr = .err := by
  have hle : (d.ndim : Int) * n ≤ -1 := by
    have : (d.ndim : Int) * n < 0 := Int.mul_neg_of_pos_of_neg (by omega) hn
    omega
  rw [make_neg hn]
  generalize (d.ndim : Int) * n = x at *
  unfold asInt
  rw [if_pos (by omega), okBind, if_pos (by omega), okBind, if_pos]
  unfold mbsize
  simp only [Bool.false_eq_true, if_false]
  omega

/-- **C93 is violated: -1 block of a dataset with one dimension.** 12 bytes are allocated for a header of 28; the size of the data is stored
behind them, during the call. -/
theorem C93_negative_violated {lim : Nat} (cfg : Cfg) {d : DInfo} (did : Nat) (arr : List Blk) (hd : d.ndim = 1) (hl : 12 ≤ lim) :
    ∃ r, make lim cfg d did (-1) arr = .ok r ∧ r.buf.length = 12 ∧ ∀ fsize foff, place r fsize foff = .ub := by
  rw [make_neg (by omega), hd]
  have e : mbsize ⟨false, false, false, false, false⟩ (-2) = 12 := by decide
  have ea : ((asInt (((1 : Nat) : Int) * -1)).bind fun a => asInt (a * 2)) = .ok (-2) := by decide
  rw [ea, okBind, e, if_neg (by omega)]
  have e2 : hdrStores ⟨false, false, false, false, false⟩ did 12 0 (List.replicate 12 none) =
      .ok ((sleN 4 (12 : Nat) ++ sleN 4 did ++ leN 4 0).map some) := by
    unfold hdrStores
    rw [show (List.replicate 12 (none : Option Byte)) = List.replicate 4 none ++ List.replicate 4 none ++ List.replicate 4 none from rfl,
      store_mid (by simp) (by simp), okBind,
      show ∀ p q r : Buf, p ++ q ++ r = (p ++ q) ++ r ++ [] from by intro p q r; simp,
      store_mid (by simp) (by simp), okBind,
      show ∀ p q r : Buf, p ++ q ++ r ++ [] = [] ++ p ++ (q ++ r) from by intro p q r; simp,
      store_mid (by simp) (by simp), okBind]
    simp [Flags.toNat]
  rw [e2, okBind]
  refine ⟨_, rfl, by simp, ?_⟩
  intro fsize foff
  unfold place store
  rw [if_neg (by simp)]
  rfl

/-- **C93 is violated: negative numbers for scalar datasets.** The call succeeds, and its entry is that of a write of the element, but there is
no data: it refers to whatever follows in the log. -/
theorem C93_scalar_violated {lim : Nat} {n : Int} (cfg : Cfg) {d : DInfo} (did : Nat) (arr : List Blk) (hn : n < 0) (hd : d.dims = [])
    (hl : 28 ≤ lim) (mo : Nat) (foff : Int) :
    (make lim cfg d did n arr).bind (fun r => place r 0 foff) = .ok ((plainReq cfg d did [⟨[], []⟩] mo foff []).bytes.map some) := by
  have hnd : d.ndim = 0 := by rw [DInfo.ndim, hd]; rfl
  have e : mbsize ⟨false, false, false, false, false⟩ 0 = 28 := by decide
  rw [make_neg hn, hnd, Int.natCast_zero, Int.zero_mul]
  have ea : ((asInt 0).bind fun a => asInt (a * 2)) = .ok 0 := by decide
  rw [ea, okBind, e, if_neg (by omega)]
  have h0 := hdrStores_eq ⟨false, false, false, false, false⟩ did 28 0 0
  simp only [Bool.false_eq_true, if_false, Nat.add_zero] at h0
  rw [h0, okBind]
  have er : recOf d [⟨[], []⟩] = none := by
    unfold recOf
    rw [if_neg]
    intro hx
    exact hx.1 hnd
  have ef : wreqFlags cfg d [⟨[], []⟩] = ⟨false, false, false, false, false⟩ := by
    unfold wreqFlags
    simp [er]
  have es : selBytes cfg d [⟨[], []⟩] = [] := by
    rw [selBytes_eq]
    unfold coordWords
    rw [ef]
    simp [plainWords, putWords]
  have h1 := place_image (cfg := cfg) (d := d) (did := did) (bs := [⟨[], []⟩]) mo foff []
  unfold image at h1
  have em : (mkWReq cfg d did [⟨[], []⟩] 0 []).metaSize = 28 := by
    unfold WReq.metaSize WReq.selOff mkWReq
    simp only [ef, es, Bool.false_eq_true, if_false]
    rfl
  rw [em, ef, es] at h1
  simpa [-List.reduceReplicate] using h1

/-- **C93 is violated: many blocks.** From 2^30 coordinates on the number of words is computed with an overflow. -/
theorem C93_overflow_violated (lim : Nat) (cfg : Cfg) {d : DInfo} (did : Nat) {n : Nat} {arr : List Blk} (hn : n ≤ arr.length)
    (hf : (wreqFlags cfg d (arr.take n)).enc = false) (hr : (wreqFlags cfg d (arr.take n)).recd = false) (hi : 2 ^ 30 ≤ d.ndim * n) :
    make lim cfg d did n arr = .ub := by
  have hlen : (arr.take n).length = n := by rw [List.length_take]; omega
  have hfe := flagsOf_eq cfg d (arr.take n)
  rw [hlen] at hfe
  unfold make
  rw [if_neg (by omega), Int.toNat_natCast]
  simp only [hfe, hr, hf, wordsOf, Bool.false_eq_true, if_false, Int.sub_zero]
  have e1 : ((d.ndim : Int) * (n : Nat)) = ((d.ndim * n : Nat) : Int) := by simp
  rw [e1]
  generalize d.ndim * n = x at *
  unfold asInt
  by_cases hx : -2147483648 ≤ (x : Int) ∧ (x : Int) < 2147483648
  · rw [if_pos hx, okBind, if_neg (by omega)]
    rfl
  · rw [if_neg hx]
    rfl

/-! ### Examples: a dataset with an unlimited first dimension -/

/-- A dataset of the example. -/
def wmD : DInfo := ⟨[10, 8], [none, some 8], 4⟩

/-- Blocks of record 3. -/
def wmB : List Blk := [⟨[3, 0], [1, 2]⟩, ⟨[3, 4], [1, 3]⟩]

/-- Blocks of different records. -/
def wmB2 : List Blk := [⟨[3, 0], [1, 2]⟩, ⟨[4, 4], [1, 3]⟩]

theorem wmB_ok : Spec.SelOK wmD wmB ∧ Spec.SelOK wmD wmB2 := by
  refine ⟨⟨by decide, by decide, ?_⟩, ⟨by decide, by decide, ?_⟩⟩
  · intro b hb
    simp only [wmB, List.mem_cons, List.not_mem_nil, or_false] at hb
    rcases hb with rfl | rfl <;> exact ⟨rfl, rfl, by decide, by decide⟩
  · intro b hb
    simp only [wmB2, List.mem_cons, List.not_mem_nil, or_false] at hb
    rcases hb with rfl | rfl <;> exact ⟨rfl, rfl, by decide, by decide⟩

example : (make 1000 ⟨true, true⟩ wmD 7 (2 : Nat) (wmB ++ wmB2)).bind (fun r => place r 20 100) =
    .ok ((plainReq ⟨true, true⟩ wmD 7 wmB 0 100 (List.replicate 20 0)).bytes.map some) :=
  C93_record 7 (by decide) rfl wmB_ok.1 (by decide) 0 100 (List.replicate 20 0) (by decide)

example : (plainReq ⟨true, true⟩ wmD 7 wmB 0 100 (List.replicate 20 0)).bytes.length = 72 ∧
    (plainReq ⟨true, true⟩ wmD 7 wmB2 0 100 (List.replicate 20 0)).bytes.length = 72 ∧
    (plainReq ⟨false, true⟩ wmD 7 wmB2 0 100 (List.replicate 20 0)).bytes.length = 96 := by decide

example : ((make 1000 ⟨true, true⟩ wmD 7 (2 : Nat) wmB).bind fun r => (make 1000 ⟨true, true⟩ wmD 9 (2 : Nat) wmB).bind fun k =>
    (refer r k ((40 : Int) - 400)).bind fun r => place r 20 100) =
      .ok (({ mkRef (mkWReq ⟨true, true⟩ wmD 7 wmB 400 (List.replicate 20 0)) (mkWReq ⟨true, true⟩ wmD 9 wmB 40 []) 400 with
        foff := 100 } : WReq).bytes.map some) :=
  C93_reference 7 9 (by decide) rfl wmB_ok.1 (by decide) (by decide) rfl wmB_ok.1 (by decide) (by decide) (by decide) (by decide)
    400 40 400 100 (List.replicate 20 0) []

example : make (2 ^ 62) ⟨true, true⟩ wmD 7 (-1) wmB = .err :=
  C93_negative ⟨true, true⟩ 7 wmB (by decide) (by decide) (by decide) (by decide) (by decide)

example : ∃ r, make 1000 ⟨true, true⟩ ⟨[10], [some 10], 4⟩ 7 (-1) [] = .ok r ∧ place r 0 100 = .ub := by
  obtain ⟨r, h1, _, h3⟩ := C93_negative_violated (lim := 1000) ⟨true, true⟩ (d := ⟨[10], [some 10], 4⟩) 7 [] rfl (by decide)
  exact ⟨r, h1, h3 0 100⟩

example (n : Nat) (hn : 1073741824 ≤ n) : make 1000 ⟨false, false⟩ ⟨[10], [some 10], 4⟩ 7 n (List.replicate n ⟨[0], [1]⟩) = .ub := by
  refine C93_overflow_violated 1000 ⟨false, false⟩ (d := ⟨[10], [some 10], 4⟩) 7 ?_ ?_ ?_ ?_
  · exact Nat.le_of_eq (List.length_replicate).symm
  · rw [wreqFlags_enc, Bool.and_false]
  · have : ∀ l, recOf ⟨[10], [some 10], 4⟩ l = none := by
      intro l
      unfold recOf
      rw [if_neg (by decide)]
    unfold wreqFlags
    rw [this]
    rfl
  · show 2 ^ 30 ≤ 1 * n
    omega

end Verif.Props
