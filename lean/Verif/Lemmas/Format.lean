import Verif.Spec.Format
import Verif.Lemmas.FileMeta

namespace Verif

open Spec (AW AFile WriteOK Fresh Small)
open Spec.Format

/-! ### Integers -/

theorem Spec.Format.int_succ (w : Nat) (x : Int) :
    int (w + 1) x = UInt8.ofNat (x % 256).toNat :: int w (x / 256) := by
  unfold int
  rw [List.range_succ_eq_map, List.map_cons, List.map_map]
  congr 1
  · simp
  · apply List.map_congr_left
    intro i _
    simp only [Function.comp]
    congr 2
    rw [Nat.pow_succ, Nat.mul_comm, Int.natCast_mul, Int.ediv_ediv_of_nonneg (by omega)]
    rfl

theorem Spec.Format.int_nat (w n : Nat) : int w (n : Int) = leN w n := by
  induction w generalizing n with
  | zero => rfl
  | succ w ih =>
    rw [int_succ, leN]
    have h1 : ((n : Int) % 256).toNat = n % 256 := by omega
    have h2 : (n : Int) / 256 = ((n / 256 : Nat) : Int) := by omega
    rw [h1, h2, ih]

theorem Spec.Format.int_eq (w : Nat) (x : Int) : int w x = sleN w x := by
  unfold sleN
  rw [← int_nat]
  have hM : (0 : Int) < ((256 ^ w : Nat) : Int) := by
    have : 0 < 256 ^ w := Nat.pow_pos (by omega)
    exact_mod_cast this
  rw [Int.toNat_of_nonneg (Int.emod_nonneg _ (by omega))]
  clear hM
  induction w generalizing x with
  | zero => rfl
  | succ w ih =>
    rw [int_succ, int_succ]
    have hM : (0 : Int) < ((256 ^ w : Nat) : Int) := by
      have : 0 < 256 ^ w := Nat.pow_pos (by omega)
      exact_mod_cast this
    have hp : ((256 ^ (w + 1) : Nat) : Int) = 256 * ((256 ^ w : Nat) : Int) := by
      rw [Nat.pow_succ, Nat.mul_comm, Int.natCast_mul]; rfl
    rw [hp]
    generalize hMM : ((256 ^ w : Nat) : Int) = M at *
    have h1 : x % (256 * M) % 256 = x % 256 := Int.emod_emod_of_dvd x ⟨M, rfl⟩
    have h2 : x % (256 * M) / 256 = (x / 256) % M := by
      have e1 : x % (256 * M) = x - 256 * M * (x / (256 * M)) := Int.emod_def _ _
      have e2 : (x / 256) % M = x / 256 - M * (x / 256 / M) := Int.emod_def _ _
      have e3 : x / 256 / M = x / (256 * M) := Int.ediv_ediv_of_nonneg (by omega)
      rw [e1, e2, e3, Int.mul_assoc]
      omega
    rw [h1, h2, ih (x / 256)]

@[simp] theorem Spec.Format.int_length (w : Nat) (x : Int) : (int w x).length = w := by simp [int]

theorem Spec.Format.ints_eq (ns : List Nat) : ints ns = putWords ns := by
  induction ns with
  | nil => rfl
  | cons n ns ih =>
    have : ints (n :: ns) = int 8 n ++ ints ns := rfl
    rw [this, ih, int_nat]; rfl

/-! ### Codes -/

theorem selEncode_sum (ss cs : List Nat) : selEncode ss cs = (List.zipWith (fun x w => x * w) cs ss).sum := by
  induction ss generalizing cs with
  | nil => cases cs <;> rfl
  | cons s ss ih =>
    cases cs with
    | nil => rfl
    | cons c cs => simp only [selEncode, List.zipWith_cons_cons, List.sum_cons, ih]

/-- The first dimensions left out. -/
def stripDims (r : Nat) (b : Blk) : Blk := { start := b.start.drop r, count := b.count.drop r }

/-- The weights recorded. -/
def radix (d : DInfo) (r : Nat) : List Nat := ((dsteps d.dims).drop r).take (d.ndim - r - 1)

theorem radix_last {d : DInfo} {r : Nat} (h : r < d.ndim) : radix d r ++ [1] = (dsteps d.dims).drop r := by
  have hlen : (d.dims.drop r).length = d.ndim - r := by rw [List.length_drop]; rfl
  have hne : d.dims.drop r ≠ [] := by
    intro hh; rw [hh] at hlen; simp at hlen; omega
  have hs := dsteps_take_last _ hne
  rw [hlen] at hs
  unfold radix
  rw [dsteps_drop]
  exact hs

theorem code_radix {d : DInfo} {r : Nat} (h : r < d.ndim) (c : List Nat) :
    code (radix d r) c = selEncode ((dsteps d.dims).drop r) c := by
  unfold code
  rw [radix_last h, selEncode_sum]

theorem codes_strip {d : DInfo} {r : Nat} (h : r < d.ndim) (bs : List Blk) :
    codes actual (radix d r) (bs.map (stripDims r)) = encWords (dsteps d.dims) r bs := by
  unfold codes encWords
  simp only [actual, if_true, List.map_map]
  congr 1
  · apply List.map_congr_left
    intro b _
    exact code_radix h _
  · apply List.map_congr_left
    intro b _
    simp only [Function.comp, code2, Bool.false_eq_true, if_false, Nat.zero_add]
    exact code_radix h _

theorem coords_strip (r : Nat) (bs : List Blk) : coords actual (bs.map (stripDims r)) = plainWords r bs := by
  unfold coords plainWords
  simp only [actual, if_true, List.flatMap_map]
  rfl

/-! ### Entries of the requests -/

/-- Selection of a write as it is recorded in full. -/
def ownSel (cfg : Cfg) (d : DInfo) (bs : List Blk) : Sel :=
  if (wreqFlags cfg d bs).enc then .coded (radix d (recDims d bs)) (bs.map (stripDims (recDims d bs)))
  else match bs with
    | [b] => .single (stripDims (recDims d bs) b)
    | bs => .multi (bs.map (stripDims (recDims d bs)))

theorem ownSel_text {cfg : Cfg} {d : DInfo} {bs : List Blk} (h : bs ≠ []) (isRec : Bool) :
    (ownSel cfg d bs).text actual isRec = selBytes cfg d bs := by
  rw [selBytes_eq]
  unfold ownSel coordWords
  cases he : (wreqFlags cfg d bs).enc with
  | true =>
    rw [wreqFlags_enc] at he
    simp only [Bool.and_eq_true, decide_eq_true_eq] at he
    simp only [if_true, Sel.text]
    rw [codes_strip (by omega), ints_eq, ints_eq, if_pos he.1.1, putWords_append]
    simp only [List.length_map, int_nat, actual, if_true]
    rw [List.append_assoc]
    rfl
  | false =>
    simp only [Bool.false_eq_true, if_false]
    match bs, h with
    | [b], _ =>
      simp only [Sel.text]
      have := coords_strip (recDims d [b]) [b]
      rw [List.map_singleton] at this
      rw [this, ints_eq]
      simp [actual]
    | b :: b' :: bs, _ =>
      simp only [Sel.text]
      rw [coords_strip, ints_eq, if_pos (by simp), List.length_map, int_nat]

theorem ownSel_multi {cfg : Cfg} {d : DInfo} {bs : List Blk} (h : bs ≠ []) :
    (ownSel cfg d bs).isMulti = (wreqFlags cfg d bs).mul := by
  rw [wreqFlags_mul]
  unfold ownSel
  cases he : (wreqFlags cfg d bs).enc with
  | true =>
    rw [wreqFlags_enc] at he
    simp only [Bool.and_eq_true, decide_eq_true_eq] at he
    simp [Sel.isMulti, he.1.1]
  | false =>
    simp only [Bool.false_eq_true, if_false]
    match bs, h with
    | [b], _ => rfl
    | b :: b' :: bs, _ => simp [Sel.isMulti]

theorem ownSel_coded {cfg : Cfg} {d : DInfo} {bs : List Blk} :
    (ownSel cfg d bs).isCoded = (wreqFlags cfg d bs).enc := by
  unfold ownSel
  cases he : (wreqFlags cfg d bs).enc with
  | true => rfl
  | false =>
    simp only [Bool.false_eq_true, if_false]
    split <;> rfl

theorem ownSel_ref {cfg : Cfg} {d : DInfo} {bs : List Blk} : (ownSel cfg d bs).isRef = false := by
  unfold ownSel
  split
  · rfl
  · split <;> rfl

/-- The entry a request stands for. -/
def entryOf (cfg : Cfg) (x : AW × WReq) : Entry :=
  { did := x.2.did
    recnum := if x.2.flags.recd then some x.2.recnum else none
    sel := if x.2.flags.ref then .ref x.2.flags.mul x.2.flags.enc (unsle x.2.selBuf) else ownSel cfg x.1.d x.1.bs
    foff := x.2.foff
    fsize := x.2.data.length }

theorem text_of {e : Entry} {r : WReq} (h1 : e.did = r.did) (h2 : e.recnum = if r.flags.recd then some r.recnum else none)
    (h3 : e.foff = r.foff) (h4 : e.fsize = r.data.length) (h5 : e.sel.text actual e.recnum.isSome = r.selBuf)
    (h6 : e.flag = r.flags.toNat) : e.text actual = r.bytes := by
  have hb : e.body actual = (if r.flags.recd then leN 8 r.recnum else []) ++ r.selBuf := by
    unfold Entry.body
    rw [h5, h2]
    congr 1
    cases r.flags.recd with
    | true => simp only [if_true, int_nat]
    | false => rfl
  have hl : 28 + (e.body actual).length = r.metaSize := by
    rw [hb]
    unfold WReq.metaSize WReq.selOff hdrSize
    split
    · simp; omega
    · simp
  unfold Entry.text WReq.bytes Hdr.bytes
  rw [hl, hb, h1, h3, h4, h6]
  simp only [int_eq, List.append_assoc]
  congr 2
  rw [← int_eq, int_nat]

theorem entryOf_text {cfg : Cfg} {prev : List (AW × WReq)} {x : AW × WReq} (h : SecElem cfg prev x.1 x.2)
    (hne : x.1.bs ≠ []) (hs : msize prev < 2 ^ 63) : (entryOf cfg x).text actual = x.2.bytes := by
  obtain ⟨w, r⟩ := x
  rcases h with ⟨h, _⟩ | ⟨p1, w', k, p2, e, hk, _, _, _, _, h⟩
  · simp only at h hne
    have hf : r.flags = wreqFlags cfg w.d w.bs := by rw [h]; rfl
    have hd : r.selBuf = selBytes cfg w.d w.bs := by rw [h]; rfl
    have hr : r.flags.ref = false := by rw [hf]; rfl
    apply text_of rfl rfl rfl rfl
    · simp only [entryOf, hr, Bool.false_eq_true, if_false]
      rw [ownSel_text hne, hd]
    · simp only [entryOf, hr, Bool.false_eq_true, if_false, Entry.flag]
      rw [ownSel_multi hne, ownSel_coded, ownSel_ref, ← hf, Flags.toNat, hr]
      have hdf : r.flags.defl = false := by rw [hf]; rfl
      rw [hdf]
      cases r.flags.recd <;> simp
  · simp only at h
    have hr : r.flags.ref = true := by rw [h]; rfl
    have hdf : r.flags.defl = false := by rw [h]; rfl
    have hd : r.selBuf = sleN 8 ((msize p1 : Int) - msize prev) := by rw [h]; rfl
    have hp : msize p1 ≤ msize prev := by rw [e]; simp
    apply text_of rfl rfl rfl rfl
    · simp only [entryOf, hr, if_true, Sel.text]
      rw [hd, unsle_sleN (by omega) (by omega), int_eq]
    · simp only [entryOf, hr, if_true, Entry.flag, Sel.isMulti, Sel.isCoded, Sel.isRef, Flags.toNat, hdf]
      cases r.flags.recd <;> simp

/-! ### Sections -/

theorem section_eq {cfg : Cfg} {xs : List (AW × WReq)} (h : IsSection cfg xs) (hne : ∀ x ∈ xs, x.1.bs ≠ [])
    (hs : msize xs < 2 ^ 63) : section_ actual (xs.map (entryOf cfg)) = mbytes xs := by
  unfold section_ mbytes
  rw [List.flatMap_map]
  have : ∀ x ∈ xs, (entryOf cfg x).text actual = x.2.bytes := by
    intro x hx
    obtain ⟨p, q, e⟩ := List.append_of_mem hx
    refine entryOf_text (h p x q e) (hne x hx) ?_
    rw [e, msize_append] at hs
    omega
  rw [List.flatMap_def, List.flatMap_def, List.map_congr_left this]

theorem isSection_take {cfg : Cfg} {xs ys : List (AW × WReq)} (h : IsSection cfg (xs ++ ys)) : IsSection cfg xs := by
  intro pre x post e
  exact h pre x (post ++ ys) (by rw [e]; simp)

theorem inscan_ends (base : Nat) (ns : List Nat) : inscan base ns = ends base ns := by
  induction ns generalizing base with
  | nil => rfl
  | cons n ns ih =>
    rw [inscan, ih]
    unfold ends
    rw [List.length_cons, List.range_succ_eq_map, List.map_cons, List.map_map]
    have hf : (fun i => base + n + (ns.take (i + 1)).sum) =
        (fun i => base + ((n :: ns).take (i + 1)).sum) ∘ Nat.succ := by
      funext i
      simp only [Function.comp, Nat.succ_eq_add_one, List.take_succ_cons, List.sum_cons]
      omega
    rw [hf]
    simp

theorem text_eq {cfg : Cfg} {secs : List (List (AW × WReq))} (h : ∀ xs ∈ secs, IsSection cfg xs)
    (hne : ∀ xs ∈ secs, ∀ x ∈ xs, x.1.bs ≠ []) (hs : ∀ xs ∈ secs, msize xs < 2 ^ 63) :
    text actual (secs.map (fun xs => xs.map (entryOf cfg))) = mdContent secs := by
  have hx : ∀ xs ∈ secs, section_ actual (xs.map (entryOf cfg)) = mbytes xs :=
    fun xs hxs => section_eq (h xs hxs) (hne xs hxs) (hs xs hxs)
  have hsz : (secs.map (fun xs => xs.map (entryOf cfg))).map (fun es => (section_ actual es).length) = secs.map msize := by
    rw [List.map_map]
    apply List.map_congr_left
    intro xs hxs
    simp only [Function.comp]
    rw [hx xs hxs, mbytes_length]
  unfold text mdContent
  rw [hsz, List.flatMap_map, List.flatMap_def, List.map_congr_left hx]
  congr 1
  unfold decomp
  simp only [actual, if_true, List.length_map]
  rw [inscan_ends, ints_eq, int_nat]
  rw [show 8 + 8 * secs.length = 8 * (secs.length + 1) by omega]
  rfl

/-! ### Meaning -/

theorem inRecord_eq (o : Option Nat) (b : Blk) : inRecord o b = recMap o b := by
  cases o <;> rfl

theorem whole_strip {d : DInfo} {bs : List Blk} :
    (bs.map (stripDims (recDims d bs))).map (whole (recOf d bs)) = bs := by
  rw [List.map_map]
  have : ∀ b ∈ bs, (whole (recOf d bs) ∘ stripDims (recDims d bs)) b = b := by
    intro b hb
    simp only [Function.comp]
    unfold recDims
    cases hr : recOf d bs with
    | none => simp [whole, stripDims]
    | some n =>
      have h := (recOf_some hr).2 b hb
      simp only [Option.isSome_some, if_true, whole, stripDims]
      rw [head_drop h.1, head_drop h.2]
  exact (List.map_congr_left this).trans (by simp)

theorem ownSel_blocks {cfg : Cfg} {d : DInfo} {bs : List Blk} :
    (ownSel cfg d bs).blocks = some (bs.map (stripDims (recDims d bs))) := by
  unfold ownSel
  split
  · rfl
  · split <;> rfl

theorem refTo_blocks {cfg : Cfg} {w w' : AW} (h : SelWF cfg w.d w.bs)
    (h' : SelWF cfg w'.d w'.bs) (hr : recDims w'.d w'.bs = recDims w.d w.bs)
    (hs : selBytes cfg w'.d w'.bs = selBytes cfg w.d w.bs) (mo' mo : Nat) (foff : Int) :
    w'.bs.map (recMap (if (AW.refTo cfg w w' mo' mo foff).flags.recd then
        some (AW.refTo cfg w w' mo' mo foff).recnum else none)) = w.bs := by
  have hb := recMap_share h h' hr.symm hs.symm
  have hi := recOf_isSome_of hr
  have hfl : (AW.refTo cfg w w' mo' mo foff).flags.recd =
      ((recOf w.d w.bs).isSome && !((recOf w.d w.bs).isSome && (recOf w'.d w'.bs).isSome
        && decide ((recOf w.d w.bs).getD 0 = (recOf w'.d w'.bs).getD 0))) := rfl
  have hrn : (AW.refTo cfg w w' mo' mo foff).recnum = (recOf w.d w.bs).getD 0 := rfl
  rw [hfl, hrn]
  cases hw : recOf w.d w.bs with
  | none =>
    rw [hw] at hb
    simp only [Option.isSome_none, Bool.false_and, Bool.false_eq_true, if_false]
    exact hb.symm
  | some n =>
    cases hw' : recOf w'.d w'.bs with
    | none => rw [hw, hw'] at hi; simp at hi
    | some n' =>
      rw [hw] at hb
      by_cases hn : n = n'
      · subst hn
        have := @recMap_self w'.d w'.bs
        rw [hw'] at this
        rw [this] at hb
        simp only [Option.isSome_some, Bool.and_self, Option.getD_some, decide_true, Bool.not_true,
          Bool.and_false, Bool.false_eq_true, if_false]
        rw [recMap_none, hb]
      · simp only [Option.isSome_some, Bool.true_and, Option.getD_some, hn, decide_false,
          Bool.not_false, if_true]
        exact hb.symm

theorem pos_eq {cfg : Cfg} {pre post : List (AW × WReq)} (h : IsSection cfg (pre ++ post))
    (hne : ∀ x ∈ pre, x.1.bs ≠ []) (hs : msize pre < 2 ^ 63) :
    pos actual ((pre ++ post).map (entryOf cfg)) pre.length = msize pre := by
  unfold pos
  rw [List.map_append, List.take_left' (by simp), section_eq (isSection_take h) hne hs, mbytes_length]

theorem selects_plain {cfg : Cfg} {pre post : List (AW × WReq)} {w : AW} {r : WReq}
    (h : r = AW.plain cfg w (msize pre) r.foff) :
    Selects actual ((pre ++ (w, r) :: post).map (entryOf cfg)) pre.length w.bs := by
  have hf : r.flags = wreqFlags cfg w.d w.bs := by rw [h]; rfl
  have hn : r.recnum = (recOf w.d w.bs).getD 0 := by rw [h]; rfl
  have hr : (entryOf cfg (w, r)).recnum = recOf w.d w.bs := by
    simp only [entryOf, hf, wreqFlags_recd, hn]
    cases recOf w.d w.bs <;> simp
  have hsel : (entryOf cfg (w, r)).sel = ownSel cfg w.d w.bs := by
    have : r.flags.ref = false := by rw [hf]; rfl
    simp only [entryOf, this, Bool.false_eq_true, if_false]
  have hk := Selects.own (v := actual) (es := (pre ++ (w, r) :: post).map (entryOf cfg)) (i := pre.length)
    (e := entryOf cfg (w, r)) (bs := w.bs.map (stripDims (recDims w.d w.bs))) (by simp)
    (by rw [hsel]; exact ownSel_blocks)
  rw [hr, whole_strip] at hk
  exact hk

theorem selects_of {cfg : Cfg} {pre post : List (AW × WReq)} {x : AW × WReq} (h : IsSection cfg (pre ++ x :: post))
    (hw : ∀ y ∈ pre ++ x :: post, AWF cfg y.1) (hs : msize (pre ++ x :: post) < 2 ^ 63) :
    Selects actual ((pre ++ x :: post).map (entryOf cfg)) pre.length x.1.bs := by
  obtain ⟨w, r⟩ := x
  rw [msize_append] at hs
  have hne : ∀ y ∈ pre ++ (w, r) :: post, y.1.bs ≠ [] := fun y hy => (hw y hy).sel.ne
  rcases h pre (w, r) post rfl with ⟨h1, _⟩ | ⟨p1, w', k, p2, e, hk, _, h1, h2, _, h3⟩
  · exact selects_plain h1
  · simp only at h1 h2 h3 ⊢
    have hr : r.flags.ref = true := by rw [h3]; rfl
    have hd : r.selBuf = sleN 8 ((msize p1 : Int) - msize pre) := by rw [h3]; rfl
    have hle : msize p1 ≤ msize pre := by rw [e]; simp
    have hj := selects_plain (post := p2 ++ (w, r) :: post) hk
    have hlist : p1 ++ (w', k) :: (p2 ++ (w, r) :: post) = pre ++ (w, r) :: post := by rw [e]; simp
    rw [hlist] at hj
    have hpi := pos_eq h (fun y hy => hne y (by simp [hy])) (by omega)
    have hpj := pos_eq (pre := p1) (post := (w', k) :: (p2 ++ (w, r) :: post)) (by rw [hlist]; exact h)
      (fun y hy => hne y (by rw [← hlist]; simp [hy])) (by omega)
    rw [hlist] at hpj
    have hsel : (entryOf cfg (w, r)).sel = .ref r.flags.mul r.flags.enc ((msize p1 : Int) - msize pre) := by
      simp only [entryOf, hr, if_true, hd]
      rw [unsle_sleN (by omega) (by omega)]
    have hres := Selects.ref (v := actual) (es := (pre ++ (w, r) :: post).map (entryOf cfg)) (i := pre.length)
      (j := p1.length) (e := entryOf cfg (w, r)) (by simp) hsel (by rw [e]; simp) (by rw [hpi, hpj]; omega) hj
    have hb := refTo_blocks (hw (w, r) (by simp)) (hw (w', k) (by rw [e]; simp)) h2 h1 (msize p1) (msize pre) r.foff
    simp only at hb
    have hrec : (entryOf cfg (w, r)).recnum = (if (AW.refTo cfg w w' (msize p1) (msize pre) r.foff).flags.recd then
        some (AW.refTo cfg w w' (msize p1) (msize pre) r.foff).recnum else none) := by
      rw [← h3]; rfl
    rw [← hrec] at hb
    rw [List.map_congr_left (fun b _ => inRecord_eq _ b), hb] at hres
    exact hres

/-! ### Limits -/

theorem code_cons (w : Nat) (ws : List Nat) (c : Nat) (cs : List Nat) : code (w :: ws) (c :: cs) = c * w + code ws cs := by
  simp [code]

theorem decodable_of {ds cs : List Nat} (hl : cs.length = ds.length) (h : Digits ds.tail cs.tail) :
    Decodable ((dsteps ds).take (ds.length - 1)) cs := by
  induction ds generalizing cs with
  | nil => simp [dsteps, Decodable]
  | cons d ds ih =>
    cases cs with
    | nil => simp at hl
    | cons c cs =>
      cases ds with
      | nil => simp [Decodable]
      | cons d' ds =>
        simp only [List.tail_cons] at h
        simp only [List.length_cons, Nat.add_sub_cancel] at hl ⊢
        rw [dsteps, List.take_succ_cons]
        refine ⟨?_, ?_⟩
        · have h1 := selEncode_lt h
          have h2 := dsteps_take_last (d' :: ds) (by simp)
          simp only [List.length_cons, Nat.add_sub_cancel] at h2
          unfold code
          rw [h2, ← selEncode_sum]
          exact h1
        · have := ih (cs := cs) (by simp; omega) (by
            cases cs with
            | nil => simp at hl
            | cons c' cs => exact h.2)
          simpa using this

theorem ownSel_fits {cfg : Cfg} {d : DInfo} {bs : List Blk} (h : SelWF cfg d bs) :
    (ownSel cfg d bs).Fits (d.ndim - recDims d bs) := by
  have hb : ∀ b ∈ bs, Spec.BlkOK (d.ndim - recDims d bs) (stripDims (recDims d bs) b) := by
    intro b hb
    have h1 := h.sel.blk b hb
    refine ⟨by simp [stripDims, h1.hs], by simp [stripDims, h1.hc], ?_, ?_⟩
    · intro x hx; exact h1.s64 x (List.mem_of_mem_drop hx)
    · intro x hx; exact h1.c64 x (List.mem_of_mem_drop hx)
  unfold ownSel
  cases he : (wreqFlags cfg d bs).enc with
  | true =>
    have hE := h.enc he
    rw [wreqFlags_enc] at he
    simp only [Bool.and_eq_true, decide_eq_true_eq] at he
    have hlen : (d.dims.drop (recDims d bs)).length = d.ndim - recDims d bs := by rw [List.length_drop]; rfl
    simp only [if_true, Sel.Fits, List.length_map]
    refine ⟨he.1.1, h.sel.len, ?_, ?_, ?_⟩
    · unfold radix
      rw [dsteps_drop, List.length_take, dsteps_length, hlen]
      omega
    · intro w hw
      exact hE.s64 w (List.mem_of_mem_take hw)
    · intro b' hb'
      obtain ⟨b, hbm, rfl⟩ := List.mem_map.mp hb'
      have h1 := hb b hbm
      refine ⟨h1.hs, h1.hc, ?_, ?_, ?_, ?_⟩
      · rw [code_radix (by omega)]
        refine hE.e64 _ (List.mem_append_left _ (List.mem_map.mpr ⟨b, hbm, rfl⟩))
      · rw [code_radix (by omega)]
        refine hE.e64 _ (List.mem_append_right _ (List.mem_map.mpr ⟨b, hbm, rfl⟩))
      · unfold radix
        rw [dsteps_drop, ← hlen]
        exact decodable_of (by rw [hlen]; exact h1.hs) (hE.ds b hbm)
      · unfold radix
        rw [dsteps_drop, ← hlen]
        exact decodable_of (by rw [hlen]; exact h1.hc) (hE.dc b hbm)
  | false =>
    simp only [Bool.false_eq_true, if_false]
    match bs, h, hb with
    | [], h, _ => exact absurd rfl h.sel.ne
    | [b], _, hb => exact hb b (by simp)
    | b :: b' :: bs, h, hb =>
      refine ⟨by simp, by rw [List.length_map]; exact h.sel.len, ?_⟩
      intro c hc
      obtain ⟨a, ha, rfl⟩ := List.mem_map.mp hc
      exact hb a ha

theorem entryOf_fits {cfg : Cfg} {prev : List (AW × WReq)} {x : AW × WReq} (h : SecElem cfg prev x.1 x.2)
    (hw : Spec.Recordable cfg x.1 x.2.foff) (hs : msize prev < 2 ^ 63) :
    (entryOf cfg x).Fits actual x.1.d.ndim := by
  have hsz := (hw.fits.hdr h).m1
  have ht := entryOf_text h hw.sel.ne hs
  have hl := congrArg List.length ht
  rw [WReq.bytes_length] at hl
  have hl2 : ((entryOf cfg x).text actual).length = 28 + ((entryOf cfg x).body actual).length := by
    simp [Entry.text]; omega
  have hh := secElem_hdr h
  have hrn : x.2.recnum < 2 ^ 64 ∧ (x.2.flags.recd = true → (recOf x.1.d x.1.bs).isSome = true ∧ 0 < x.1.d.ndim) := by
    have key : (recOf x.1.d x.1.bs).getD 0 < 2 ^ 64 ∧ ((recOf x.1.d x.1.bs).isSome = true → 0 < x.1.d.ndim) := by
      cases hr : recOf x.1.d x.1.bs with
      | none => simp
      | some n =>
        have h1 := recOf_lt hw.sel hr
        have h2 := (recOf_some hr).1
        simp only [Option.getD_some]
        exact ⟨h1, fun _ => by omega⟩
    rcases h with ⟨h, _⟩ | ⟨p1, w', k, p2, e, _, _, _, _, _, h⟩
    · rw [h]
      exact ⟨key.1, fun hc => ⟨hc, key.2 hc⟩⟩
    · rw [h]
      refine ⟨key.1, fun hc => ?_⟩
      have : (recOf x.1.d x.1.bs).isSome = true := by
        have hc' : ((recOf x.1.d x.1.bs).isSome && !((recOf x.1.d x.1.bs).isSome && (recOf w'.d w'.bs).isSome
          && decide ((recOf x.1.d x.1.bs).getD 0 = (recOf w'.d w'.bs).getD 0))) = true := hc
        rw [Bool.and_eq_true] at hc'
        exact hc'.1
      exact ⟨this, key.2 this⟩
  refine ⟨?_, ?_, ?_, ?_, ?_, ?_⟩
  · have : x.2.hdr.metaSize = x.2.metaSize := rfl
    rw [this] at hsz
    omega
  · show x.2.did < _
    rw [hh.1]; exact hw.rep.did
  · exact ⟨hw.rep.lo, hw.rep.hi⟩
  · show 0 ≤ (x.2.data.length : Int) ∧ (x.2.data.length : Int) < _
    rw [hh.2.1]
    have := hw.rep.data
    omega
  · intro k hk
    simp only [entryOf] at hk
    split at hk
    · rename_i hc
      simp only [Option.some.injEq] at hk
      rw [← hk]
      exact ⟨hrn.1, (hrn.2 hc).2⟩
    · cases hk
  · rcases h with ⟨h, _⟩ | ⟨p1, w', k, p2, e, _, _, _, _, _, h⟩
    · have hf : x.2.flags = wreqFlags cfg x.1.d x.1.bs := by rw [h]; rfl
      have hr : x.2.flags.ref = false := by rw [hf]; rfl
      have hi : ((entryOf cfg x).recnum.isSome = true) = ((recOf x.1.d x.1.bs).isSome = true) := by
        simp only [entryOf, hf, wreqFlags_recd]
        cases (recOf x.1.d x.1.bs).isSome <;> simp
      have hse : (entryOf cfg x).sel = ownSel cfg x.1.d x.1.bs := by
        simp only [entryOf, hr, Bool.false_eq_true, if_false]
      rw [hse]
      simp only [hi]
      exact ownSel_fits hw.awf
    · have hr : x.2.flags.ref = true := by rw [h]; rfl
      have hd : x.2.selBuf = sleN 8 ((msize p1 : Int) - msize prev) := by rw [h]; rfl
      have hle : msize p1 ≤ msize prev := by rw [e]; simp
      have hse : (entryOf cfg x).sel = .ref x.2.flags.mul x.2.flags.enc ((msize p1 : Int) - msize prev) := by
        simp only [entryOf, hr, if_true, hd]
        rw [unsle_sleN (by omega) (by omega)]
      rw [hse]
      show -(2 ^ 63 : Int) ≤ _ ∧ _ < (2 ^ 63 : Int)
      omega

end Verif
