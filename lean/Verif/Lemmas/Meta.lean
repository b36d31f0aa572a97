import Verif.Spec.Meta

namespace Verif

theorem Flags.ofNat_toNat (f : Flags) : Flags.ofNat f.toNat = f := by
  rcases f with ⟨a, b, c, d, e⟩
  cases a <;> cases b <;> cases c <;> cases d <;> cases e <;> decide

theorem Flags.toNat_lt (f : Flags) : f.toNat < 64 := by
  rcases f with ⟨a, b, c, d, e⟩
  cases a <;> cases b <;> cases c <;> cases d <;> cases e <;> decide

@[simp] theorem Hdr.bytes_length (h : Hdr) : h.bytes.length = 28 := by simp [Hdr.bytes]

/-- Header fields fit their C types. -/
structure Hdr.Fits (h : Hdr) : Prop where
  m0 : -(2 ^ 31) ≤ h.metaSize
  m1 : h.metaSize < 2 ^ 31
  d0 : -(2 ^ 31) ≤ h.did
  d1 : h.did < 2 ^ 31
  o0 : -(2 ^ 63) ≤ h.foff
  o1 : h.foff < 2 ^ 63
  z0 : -(2 ^ 63) ≤ h.fsize
  z1 : h.fsize < 2 ^ 63

theorem take_app {α : Type} (a b : List α) (n : Nat) (h : n = a.length) : (a ++ b).take n = a := by
  subst h; exact List.take_left ..

theorem drop_app {α : Type} (a b : List α) (n : Nat) (h : n = a.length) : (a ++ b).drop n = b := by
  subst h; exact List.drop_left ..

theorem rdHdr_bytes {h : Hdr} (hf : h.Fits) (pre post : List Byte) {off : Nat}
    (ho : off = pre.length) :
    rdHdr (pre ++ h.bytes ++ post) off = .ok h := by
  obtain ⟨m0, m1, d0, d1, o0, o1, z0, z1⟩ := hf
  unfold rdHdr
  rw [rd_append ho (by simp [hdrSize])]
  simp only [Res.ok_bind, Res.pure_eq]
  congr 1
  rcases h with ⟨ms, did, fl, fo, fs⟩
  simp only at *
  unfold Hdr.bytes
  simp only [List.append_assoc]
  have e4 : ((256 ^ 4 : Nat) : Int) = 2 ^ 32 := by decide
  have e8 : ((256 ^ 8 : Nat) : Int) = 2 ^ 64 := by decide
  rw [take_app _ _ 4 (by simp)]
  have hd4 := drop_app (sleN 4 ms) (sleN 4 did ++ (leN 4 fl.toNat ++ (sleN 8 fo ++ sleN 8 fs))) 4 (by simp)
  have hd8 := drop_app (sleN 4 ms ++ sleN 4 did) (leN 4 fl.toNat ++ (sleN 8 fo ++ sleN 8 fs)) 8 (by simp)
  have hd12 := drop_app (sleN 4 ms ++ sleN 4 did ++ leN 4 fl.toNat) (sleN 8 fo ++ sleN 8 fs) 12 (by simp)
  have hd20 := drop_app (sleN 4 ms ++ sleN 4 did ++ leN 4 fl.toNat ++ sleN 8 fo) (sleN 8 fs) 20 (by simp)
  simp only [List.append_assoc] at hd4 hd8 hd12 hd20
  rw [hd4, hd8, hd12, hd20]
  rw [take_app _ _ 4 (by simp), take_app _ _ 4 (by simp), take_app _ _ 8 (by simp)]
  rw [List.take_of_length_le (by simp : (sleN 8 fs).length ≤ 8)]
  have hfl := fl.toNat_lt
  rw [unsle_sleN (by omega) (by omega), unsle_sleN (by omega) (by omega),
    unsle_sleN (by omega) (by omega), unsle_sleN (by omega) (by omega),
    unle_leN_of_lt (by omega), Flags.ofNat_toNat]

/-! ### Mixed-radix encoding -/

@[simp] theorem dsteps_length (ds : List Nat) : (dsteps ds).length = ds.length := by
  induction ds with
  | nil => rfl
  | cons d ds ih => simp [dsteps, ih]

theorem dsteps_drop (ds : List Nat) (r : Nat) : (dsteps ds).drop r = dsteps (ds.drop r) := by
  induction ds generalizing r with
  | nil => simp [dsteps]
  | cons d ds ih =>
    cases r with
    | zero => rfl
    | succ r => simp [dsteps, ih]

theorem dsteps_take_last (ds : List Nat) (h : ds ≠ []) :
    (dsteps ds).take (ds.length - 1) ++ [1] = dsteps ds := by
  induction ds with
  | nil => exact absurd rfl h
  | cons d ds ih =>
    cases ds with
    | nil => simp [dsteps, prod]
    | cons e es =>
      have := ih (by simp)
      simp only [List.length_cons, Nat.add_sub_cancel] at this ⊢
      rw [dsteps, List.take_succ_cons, List.cons_append, this]

@[simp] theorem prod_nil : prod [] = 1 := rfl
@[simp] theorem prod_cons (a : Nat) (l : List Nat) : prod (a :: l) = a * prod l := rfl

/-- Every digit is below its radix. -/
def Digits : List Nat → List Nat → Prop
  | d :: ds, c :: cs => c < d ∧ Digits ds cs
  | [], [] => True
  | _, _ => False

theorem selEncode_lt {ds cs : List Nat} (h : Digits ds cs) : selEncode (dsteps ds) cs < prod ds := by
  induction ds generalizing cs with
  | nil => cases cs <;> simp_all [Digits, selEncode, dsteps]
  | cons d ds ih =>
    cases cs with
    | nil => simp [Digits] at h
    | cons c cs =>
      simp only [Digits] at h
      have h2 := ih h.2
      simp only [dsteps, selEncode, prod_cons]
      calc c * prod ds + selEncode (dsteps ds) cs < c * prod ds + prod ds := by omega
        _ = (c + 1) * prod ds := by rw [Nat.add_mul, Nat.one_mul]
        _ ≤ d * prod ds := Nat.mul_le_mul_right _ h.1

theorem Digits.prod_pos {ds cs : List Nat} (h : Digits ds cs) : 0 < prod ds := by
  have := selEncode_lt h; omega

theorem selDecode_selEncode_digits {ds cs : List Nat} (h : Digits ds cs) :
    selDecode (dsteps ds) (selEncode (dsteps ds) cs) = .ok cs := by
  induction ds generalizing cs with
  | nil => cases cs <;> simp_all [Digits, selDecode, dsteps]
  | cons d ds ih =>
    cases cs with
    | nil => simp [Digits] at h
    | cons c cs =>
      have hp := h.2.prod_pos
      have hl := selEncode_lt h.2
      simp only [dsteps, selEncode, selDecode]
      rw [if_neg (by omega)]
      have e1 : (c * prod ds + selEncode (dsteps ds) cs) % prod ds = selEncode (dsteps ds) cs := by
        rw [Nat.add_comm, Nat.add_mul_mod_self_right, Nat.mod_eq_of_lt hl]
      have e2 : (c * prod ds + selEncode (dsteps ds) cs) / prod ds = c := by
        rw [Nat.add_comm, Nat.add_mul_div_right _ _ hp, Nat.div_eq_of_lt hl, Nat.zero_add]
      rw [e1, e2, ih h.2]
      rfl

/-- Round trip when all digits but the first are below their radix. -/
theorem selDecode_selEncode {ds cs : List Nat} (hlen : cs.length = ds.length)
    (h : Digits ds.tail cs.tail) :
    selDecode (dsteps ds) (selEncode (dsteps ds) cs) = .ok cs := by
  cases ds with
  | nil => cases cs <;> simp_all [selDecode, dsteps]
  | cons d ds =>
    cases cs with
    | nil => simp at hlen
    | cons c cs =>
      simp only [List.tail_cons] at h
      have : Digits ((c + 1) :: ds) (c :: cs) := ⟨by omega, h⟩
      simpa [dsteps] using selDecode_selEncode_digits this

/-- All decoded digits but the first are below their radix. -/
theorem selDecode_digits {ds cs : List Nat} {x : Nat} (hx : x < prod ds)
    (h : selDecode (dsteps ds) x = .ok cs) : Digits ds cs := by
  induction ds generalizing cs x with
  | nil =>
    simp only [dsteps, selDecode, Res.ok.injEq] at h
    subst h; trivial
  | cons d ds ih =>
    simp only [dsteps, selDecode] at h
    split at h
    · simp at h
    · rename_i hp
      cases hr : selDecode (dsteps ds) (x % prod ds) with
      | ok r =>
        rw [hr] at h
        simp only [Res.ok_bind, Res.pure_eq, Res.ok.injEq] at h
        subst h
        refine ⟨?_, ih (Nat.mod_lt _ (by omega)) hr⟩
        rw [prod_cons] at hx
        exact Nat.div_lt_of_lt_mul (by rwa [Nat.mul_comm])
      | err => rw [hr] at h; simp at h
      | ub => rw [hr] at h; simp at h

theorem selDecode_tail_digits {ds cs : List Nat} {x : Nat}
    (h : selDecode (dsteps ds) x = .ok cs) : Digits ds.tail cs.tail := by
  cases ds with
  | nil =>
    simp only [dsteps, selDecode, Res.ok.injEq] at h
    subst h; trivial
  | cons d ds =>
    simp only [dsteps, selDecode] at h
    split at h
    · simp at h
    · rename_i hp
      cases hr : selDecode (dsteps ds) (x % prod ds) with
      | ok r =>
        rw [hr] at h
        simp only [Res.ok_bind, Res.pure_eq, Res.ok.injEq] at h
        subst h
        exact selDecode_digits (Nat.mod_lt _ (Nat.pos_of_ne_zero hp)) hr
      | err => rw [hr] at h; simp at h
      | ub => rw [hr] at h; simp at h

/-! ### Chunks and word lists -/

theorem chunks_flatMap {α : Type} (f : α → List Nat) (k : Nat) (bs : List α) (rest : List Nat)
    (h : ∀ b ∈ bs, (f b).length = k) :
    chunks k bs.length (bs.flatMap f ++ rest) = bs.map f := by
  induction bs with
  | nil => simp [chunks]
  | cons b bs ih =>
    have hb := h b (by simp)
    simp only [List.length_cons, chunks, List.flatMap_cons, List.map_cons, List.append_assoc]
    rw [take_app _ _ k hb.symm, drop_app _ _ k hb.symm, ih (fun x hx => h x (by simp [hx]))]

theorem flatMap_length_const {α : Type} (f : α → List Nat) (k : Nat) (bs : List α)
    (h : ∀ b ∈ bs, (f b).length = k) : (bs.flatMap f).length = k * bs.length := by
  induction bs with
  | nil => simp
  | cons b bs ih =>
    simp only [List.flatMap_cons, List.length_append, List.length_cons]
    rw [h b (by simp), ih (fun x hx => h x (by simp [hx])), Nat.mul_add]
    omega

theorem mapRes_map {α β γ : Type} (f : α → β) (g : β → Res γ) (h : α → γ) (l : List α)
    (H : ∀ a ∈ l, g (f a) = .ok (h a)) : mapRes g (l.map f) = .ok (l.map h) := by
  induction l with
  | nil => rfl
  | cons a l ih =>
    simp only [List.map_cons, mapRes]
    rw [H a (by simp), ih (fun x hx => H x (by simp [hx]))]
    rfl

/-! ### Record test -/

theorem recOf_some {d : DInfo} {bs : List Blk} {n : Nat} (h : recOf d bs = some n) :
    d.ndim ≠ 0 ∧ ∀ b ∈ bs, b.start.head? = some n ∧ b.count.head? = some 1 := by
  unfold recOf at h
  split at h
  · rename_i hc
    refine ⟨hc.1, ?_⟩
    cases bs with
    | nil => simp at h
    | cons b bs =>
      simp only at h
      split at h
      · rename_i hall
        rw [List.all_eq_true] at hall
        intro x hx
        have := hall x hx
        simp only [Bool.and_eq_true, beq_iff_eq] at this
        rw [this.2, this.1]
        exact ⟨h, rfl⟩
      · simp at h
  · simp at h

theorem head_drop {l : List Nat} {n : Nat} (h : l.head? = some n) : n :: l.drop 1 = l := by
  cases l <;> simp_all

/-! ### Decoding what the constructor wrote -/

theorem addDoffs_length (e acc : Nat) (l : List (List Nat × List Nat)) :
    (addDoffs e acc l).length = l.length := by
  induction l generalizing acc with
  | nil => rfl
  | cons p l ih => rcases p with ⟨s, c⟩; simp [addDoffs, ih]

theorem addDoffs_get (e acc : Nat) (l : List (List Nat × List Nat)) (i : Nat)
    (h : i < (addDoffs e acc l).length) (h' : i < l.length) :
    (addDoffs e acc l)[i] =
      { start := l[i].1, count := l[i].2,
        doff := acc + e * ((l.take i).map (fun p => prod p.2)).sum } := by
  induction l generalizing acc i with
  | nil => simp at h'
  | cons p l ih =>
    rcases p with ⟨s, c⟩
    cases i with
    | zero => simp [addDoffs]
    | succ i =>
      simp only [addDoffs, List.getElem_cons_succ, List.take_succ_cons, List.map_cons, List.sum_cons]
      rw [ih]
      · congr 1
        rw [Nat.mul_add]; omega
      · simpa using h'

theorem addDoffs_blocks (e : Nat) (bs : List Blk) :
    addDoffs e 0 ((bs.map Blk.start).zip (bs.map Blk.count)) = Spec.sels e bs := by
  have hz : (bs.map Blk.start).zip (bs.map Blk.count) = bs.map (fun b => (b.start, b.count)) := by
    induction bs with
    | nil => rfl
    | cons b bs ih => simp [ih]
  rw [hz]
  apply List.ext_getElem
  · simp [addDoffs_length, Spec.sels]
  · intro i h1 h2
    rw [addDoffs_get _ _ _ _ _ (by simpa [addDoffs_length] using h1)]
    simp only [Spec.sels, List.getElem_mapIdx, List.getElem_map, Spec.dataOffset, Nat.zero_add]
    rw [← List.map_take, List.map_map]
    rfl

end Verif
