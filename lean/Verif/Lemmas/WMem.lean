import Verif.Model.WMem
import Verif.Lemmas.Share

/- Lemmas on the memory of write requests. -/

namespace Verif.WMem
open Verif

@[simp] theorem okBind {α β : Type} (a : α) (f : α → Res β) : (Res.ok a).bind f = f a := rfl

theorem store_mid {a x c : Buf} {b : List Byte} {o : Nat} (ho : o = a.length) (hb : b.length = x.length) :
    store (a ++ x ++ c) o b = .ok (a ++ b.map some ++ c) := by
  subst ho
  unfold store
  rw [if_pos (by simp [hb])]
  have h1 : (a ++ x ++ c).take a.length = a := by simp
  have h2 : (a ++ x ++ c).drop (a.length + b.length) = c := by
    rw [hb, ← List.length_append, List.drop_left]
  rw [h1, h2]

theorem storeAll_end (bs : List (List Byte)) {a x : Buf} {o : Nat} (ho : o = a.length) (hx : x.length = bs.flatten.length) :
    storeAll (a ++ x) o bs = .ok (a ++ bs.flatten.map some) := by
  induction bs generalizing a x o with
  | nil =>
    have : x = [] := List.eq_nil_of_length_eq_zero (by simpa using hx)
    subst this
    rfl
  | cons b bs ih =>
    simp only [List.flatten_cons, List.length_append] at hx
    have e : a ++ x = a ++ x.take b.length ++ x.drop b.length := by
      rw [List.append_assoc, List.take_append_drop]
    rw [storeAll, e, store_mid ho (by rw [List.length_take]; omega), okBind,
      ih (by simp [ho]) (by rw [List.length_drop]; omega)]
    simp

/-- Header, gap of 16 bytes, record number. -/
theorem hdrStores_eq (f : Flags) (did mb recnum k : Nat) :
    hdrStores f did mb recnum (List.replicate (28 + (if f.recd then 8 else 0) + k) none) =
      .ok ((sleN 4 mb ++ sleN 4 did ++ leN 4 f.toNat).map some ++ List.replicate 16 none ++
        (if f.recd then leN 8 recnum else []).map some ++ List.replicate k none) := by
  have e : List.replicate (28 + (if f.recd then 8 else 0) + k) (none : Option Byte) =
      List.replicate 4 none ++ List.replicate 4 none ++ (List.replicate 4 none ++
        (List.replicate 16 none ++ (List.replicate (if f.recd then 8 else 0) none ++ List.replicate k none))) := by
    simp only [List.replicate_append_replicate]
    congr 1
    omega
  unfold hdrStores
  rw [e, store_mid (by simp) (by simp), okBind, ← List.append_assoc, store_mid (by simp) (by simp), okBind]
  rw [show ∀ (p q r s : Buf), p ++ q ++ r ++ s = [] ++ p ++ (q ++ r ++ s) from by intro p q r s; simp,
    store_mid (by simp) (by simp), okBind]
  cases hr : f.recd with
  | false => simp [-List.reduceReplicate]
  | true =>
    simp only [if_true]
    rw [show ∀ (p q r s t u : Buf), [] ++ p ++ (q ++ r ++ (s ++ (t ++ u))) = (p ++ q ++ r ++ s) ++ t ++ u from by
      intro p q r s t u; simp, store_mid (by simp) (by simp)]
    simp [-List.reduceReplicate]

/-- Filling the gap. -/
theorem place_eq {a c : Buf} (ha : a.length = 12) (so : Nat) (f : Flags) (fsize : Nat) (foff : Int) :
    place ⟨a ++ List.replicate 16 none ++ c, so, f⟩ fsize foff =
      .ok (a ++ (sleN 8 foff ++ sleN 8 fsize).map some ++ c) := by
  unfold place
  simp only
  rw [show (List.replicate 16 (none : Option Byte)) = List.replicate 8 none ++ List.replicate 8 none from by
    simp only [List.replicate_append_replicate],
    show ∀ (p q r : Buf), a ++ (p ++ q) ++ r = (a ++ p) ++ q ++ r from by intro p q r; simp,
    store_mid (by simp [ha]) (by simp), okBind,
    show ∀ (p q r : Buf), a ++ p ++ q ++ r = a ++ p ++ (q ++ r) from by intro p q r; simp,
    store_mid (by simp [ha]) (by simp)]
  simp

theorem sleN_ofNat {w n : Nat} (h : n < 256 ^ w) : sleN w (n : Int) = leN w n := by
  unfold sleN
  rw [← Int.natCast_emod, Int.toNat_natCast, Nat.mod_eq_of_lt h]

theorem flatten_putWords {α : Type} (g : α → List Nat) (l : List α) :
    (l.map fun x => putWords (g x)).flatten = putWords (l.map g).flatten := by
  induction l with
  | nil => rfl
  | cons a l ih => simp [ih, putWords_append]

theorem flatten_leN8 {α : Type} (g : α → Nat) (l : List α) : (l.map fun x => leN 8 (g x)).flatten = putWords (l.map g) := by
  induction l with
  | nil => rfl
  | cons a l ih => simp [ih, putWords]

theorem flagsOf_eq (cfg : Cfg) (d : DInfo) (bs : List Blk) : flagsOf cfg d bs.length bs = wreqFlags cfg d bs := by
  have hm : decide ((1 : Int) < (bs.length : Nat)) = decide (1 < bs.length) := by
    by_cases h : 1 < bs.length
    · simp only [h, decide_true, decide_eq_true_eq]; omega
    · simp only [h, decide_false, decide_eq_false_iff_not]; omega
  have hE : ∀ r : Bool, decide ((1 : Int) < (d.ndim : Int) - if r then 1 else 0) = decide (1 < d.ndim - if r then 1 else 0) := by
    intro r
    by_cases h : 1 < d.ndim - if r then 1 else 0
    · simp only [h, decide_true, decide_eq_true_eq]; cases r <;> simp at h ⊢ <;> omega
    · simp only [h, decide_false, decide_eq_false_iff_not]; cases r <;> simp at h ⊢ <;> omega
  unfold flagsOf wreqFlags
  simp only [hm, hE]

/-- What the constructor stores from `sel_buf` on. -/
theorem selStores_flatten (cfg : Cfg) (d : DInfo) {bs : List Blk} (hl : bs.length < 2 ^ 31) :
    (selStores (wreqFlags cfg d bs) d bs.length bs).flatten = selBytes cfg d bs := by
  have hs : sleN 4 ((bs.length : Nat) : Int) = leN 4 bs.length := sleN_ofNat (by omega)
  rw [selBytes_eq]
  unfold selStores coordWords
  rw [hs, List.flatten_append]
  congr 1
  · rw [wreqFlags_mul]
    by_cases h : 1 < bs.length <;> simp [h]
  · show List.flatten (if (wreqFlags cfg d bs).enc = true then
        [putWords (((dsteps d.dims).drop (recDims d bs)).take (d.ndim - recDims d bs - 1))] ++
        bs.map (fun b => leN 8 (selEncode ((dsteps d.dims).drop (recDims d bs)) (b.start.drop (recDims d bs)))) ++
        bs.map (fun b => leN 8 (selEncode ((dsteps d.dims).drop (recDims d bs)) (b.count.drop (recDims d bs))))
      else bs.map (fun b => putWords (b.start.drop (recDims d bs))) ++ bs.map (fun b => putWords (b.count.drop (recDims d bs)))) = _
    split
    · rw [List.flatten_append, List.flatten_append, flatten_leN8, flatten_leN8, encWords, putWords_append, putWords_append]
      simp
    · rw [List.flatten_append, flatten_putWords, flatten_putWords, plainWords, putWords_append, List.flatMap_def, List.flatMap_def]

theorem coordWords_len {cfg : Cfg} {d : DInfo} {bs : List Blk} (h : Spec.SelOK d bs) :
    (coordWords cfg d bs).length =
      if (wreqFlags cfg d bs).enc then (d.ndim - recDims d bs - 1) + 2 * bs.length
      else 2 * (d.ndim - recDims d bs) * bs.length := by
  unfold coordWords
  split
  · rw [List.length_append, List.length_take, List.length_drop, dsteps_length]
    simp only [encWords, List.length_append, List.length_map]
    show min _ (d.ndim - _) + _ = _
    omega
  · rw [plainWords_length h]

/-- The size that is allocated is the size of the entry. -/
theorem mbsize_eq {cfg : Cfg} {d : DInfo} {bs : List Blk} (h : Spec.SelOK d bs) (hi : 2 * d.ndim * bs.length < 2 ^ 31) :
    ∃ w, wordsOf (wreqFlags cfg d bs) ((d.ndim : Int) - if (wreqFlags cfg d bs).recd then 1 else 0) bs.length = .ok w ∧
      mbsize (wreqFlags cfg d bs) w = 28 + (if (wreqFlags cfg d bs).recd then 8 else 0) + (selBytes cfg d bs).length := by
  have hrd := recDims_le d bs
  have he : ((d.ndim : Int) - if (wreqFlags cfg d bs).recd then 1 else 0) = ((d.ndim - recDims d bs : Nat) : Int) := by
    have : (if (wreqFlags cfg d bs).recd then (1 : Int) else 0) = (recDims d bs : Int) := by
      show (if (recOf d bs).isSome then (1 : Int) else 0) = _
      unfold recDims
      split <;> rfl
    rw [this]
    omega
  have hmul : (d.ndim - recDims d bs) * bs.length ≤ d.ndim * bs.length := Nat.mul_le_mul_right _ (Nat.sub_le _ _)
  rw [Nat.mul_assoc] at hi
  have hlen : (coordWords cfg d bs).length < 2 ^ 31 ∧
      wordsOf (wreqFlags cfg d bs) ((d.ndim - recDims d bs : Nat) : Int) bs.length = .ok ((coordWords cfg d bs).length : Nat) := by
    rw [coordWords_len h]
    generalize hE : d.ndim - recDims d bs = E at *
    unfold wordsOf
    cases hf : (wreqFlags cfg d bs).enc with
    | true =>
      have hf' := hf
      rw [wreqFlags_enc, hE] at hf'
      simp only [Bool.and_eq_true, decide_eq_true_eq] at hf'
      obtain ⟨⟨hN, hE1⟩, _⟩ := hf'
      have h1 : 2 * bs.length ≤ E * bs.length := Nat.mul_le_mul_right _ hE1
      have h2 : E * 2 ≤ E * bs.length := Nat.mul_le_mul_left _ hN
      simp only [if_true]
      unfold asInt
      rw [if_pos (by omega), okBind, if_pos (by omega)]
      exact ⟨by omega, by congr 1; omega⟩
    | false =>
      simp only [Bool.false_eq_true, if_false]
      have e1 : ((E : Int) * (bs.length : Nat)) = ((E * bs.length : Nat) : Int) := by simp
      unfold asInt
      rw [Nat.mul_assoc, e1, if_pos (by omega), okBind, if_pos (by omega)]
      exact ⟨by omega, by congr 1; omega⟩
  refine ⟨((coordWords cfg d bs).length : Nat), ?_, ?_⟩
  · rw [he]
    exact hlen.2
  · have hl := hlen.1
    rw [selBytes_eq, List.length_append, putWords_length]
    have hm : (if (wreqFlags cfg d bs).mul then (4 : Int) else 0) = ((if 1 < bs.length then leN 4 bs.length else []).length : Nat) := by
      rw [wreqFlags_mul]
      by_cases h1 : 1 < bs.length <;> simp [h1]
    have hm4 : (if 1 < bs.length then leN 4 bs.length else []).length ≤ 4 := by split <;> simp
    unfold mbsize
    rw [hm]
    generalize (if 1 < bs.length then leN 4 bs.length else []).length = q at *
    cases (wreqFlags cfg d bs).recd <;> simp only [Bool.false_eq_true, if_true, if_false] <;> omega

/-- The memory of a request after the constructor. -/
def image (cfg : Cfg) (d : DInfo) (did : Nat) (bs : List Blk) : Req :=
  ⟨(sleN 4 (mkWReq cfg d did bs 0 []).metaSize ++ sleN 4 did ++ leN 4 (wreqFlags cfg d bs).toNat).map some ++ List.replicate 16 none ++
      ((if (wreqFlags cfg d bs).recd then leN 8 ((recOf d bs).getD 0) else []).map some ++ (selBytes cfg d bs).map some),
    28 + (if (wreqFlags cfg d bs).recd then 8 else 0), wreqFlags cfg d bs⟩

theorem make_eq {lim : Nat} {cfg : Cfg} {d : DInfo} {did n : Nat} {arr bs : List Blk} (hn : n ≤ arr.length) (hb : arr.take n = bs)
    (h : Spec.SelOK d bs) (hi : 2 * d.ndim * n < 2 ^ 31) (hl : (mkWReq cfg d did bs 0 []).metaSize ≤ lim) :
    make lim cfg d did n arr = .ok (image cfg d did bs) := by
  have hbl : bs.length = n := by rw [← hb, List.length_take]; omega
  unfold make
  rw [if_neg (by omega), Int.toNat_natCast, hb]
  subst hbl
  simp only [flagsOf_eq]
  obtain ⟨w, h1, h2⟩ := mbsize_eq (cfg := cfg) h hi
  rw [h1, okBind]
  have hms : (mkWReq cfg d did bs 0 []).metaSize = mbsize (wreqFlags cfg d bs) w := by
    rw [h2]
    rfl
  simp only [← hms]
  rw [if_neg (by omega)]
  have h2' : (mkWReq cfg d did bs 0 []).metaSize = 28 + (if (wreqFlags cfg d bs).recd then 8 else 0) + (selBytes cfg d bs).length := rfl
  rw [show List.replicate (mkWReq cfg d did bs 0 []).metaSize (none : Option Byte) =
    List.replicate (28 + (if (wreqFlags cfg d bs).recd then 8 else 0) + (selBytes cfg d bs).length) none from by rw [h2'],
    hdrStores_eq, okBind, storeAll_end _ (by cases (wreqFlags cfg d bs).recd <;> simp)
      (by rw [selStores_flatten cfg d h.len, List.length_replicate]), okBind, selStores_flatten cfg d h.len]
  unfold image
  rw [List.append_assoc]

theorem place_image {cfg : Cfg} {d : DInfo} {did : Nat} {bs : List Blk} (mo : Nat) (foff : Int) (data : List Byte) :
    place (image cfg d did bs) data.length foff = .ok ((plainReq cfg d did bs mo foff data).bytes.map some) := by
  unfold image
  rw [place_eq (by simp)]
  congr 1
  have e : (plainReq cfg d did bs mo foff data).bytes =
      (sleN 4 (mkWReq cfg d did bs 0 []).metaSize ++ sleN 4 did ++ leN 4 (wreqFlags cfg d bs).toNat ++ sleN 8 foff ++ sleN 8 data.length)
        ++ (if (wreqFlags cfg d bs).recd then leN 8 ((recOf d bs).getD 0) else []) ++ selBytes cfg d bs := rfl
  rw [e]
  simp

theorem mapM_map_some (b : List Byte) : (b.map some).mapM id = some b := by
  induction b with
  | nil => rfl
  | cons x b ih =>
    rw [List.map_cons, List.mapM_cons, ih]
    rfl

theorem load_mid {a x c : Buf} {b : List Byte} {o n : Nat} (ho : o = a.length) (hx : x = b.map some) (hn : n = b.length) :
    load (a ++ x ++ c) o n = .ok b := by
  subst ho hx hn
  unfold load
  rw [if_pos (by simp)]
  have e : ((a ++ b.map some ++ c).drop a.length).take b.length = b.map some := by
    rw [List.append_assoc, List.drop_left]
    simp
  rw [e, mapM_map_some]

theorem sameRec_image {cfg : Cfg} {d d' : DInfo} {did did' : Nat} {bs bs' : List Blk} (h : Spec.SelOK d bs) (h' : Spec.SelOK d' bs') :
    sameRec (image cfg d did bs) (image cfg d' did' bs') =
      .ok ((wreqFlags cfg d bs).recd && (wreqFlags cfg d' bs').recd && decide ((recOf d bs).getD 0 = (recOf d' bs').getD 0)) := by
  unfold sameRec
  show (if ((wreqFlags cfg d bs).recd && (wreqFlags cfg d' bs').recd) = true then _ else _) = _
  by_cases hr : ((wreqFlags cfg d bs).recd && (wreqFlags cfg d' bs').recd) = true
  · rw [if_pos hr]
    rw [Bool.and_eq_true] at hr
    have ld : ∀ (e : DInfo) (i : Nat) (x : List Blk), (wreqFlags cfg e x).recd = true →
        load (image cfg e i x).buf 28 8 = .ok (leN 8 ((recOf e x).getD 0)) := by
      intro e i x hx
      unfold image
      simp only [hx, if_true]
      rw [← List.append_assoc]
      exact load_mid (by simp) rfl (by simp)
    rw [ld d did bs hr.1, okBind, ld d' did' bs' hr.2, okBind, hr.1, hr.2]
    have lt : ∀ (e : DInfo) (x : List Blk), Spec.SelOK e x → (recOf e x).getD 0 < 256 ^ 8 := by
      intro e x hx
      cases hc : recOf e x with
      | none => simp
      | some v => have := recOf_lt hx hc; simp only [Option.getD_some]; omega
    congr 1
    rw [Bool.true_and, Bool.true_and]
    congr 1
    apply propext
    constructor
    · intro e
      have := congrArg unle e
      rwa [unle_leN_of_lt (lt d bs h), unle_leN_of_lt (lt d' bs' h')] at this
    · intro e
      rw [e]
  · rw [if_neg hr]
    have : ((wreqFlags cfg d bs).recd && (wreqFlags cfg d' bs').recd) = false := by simpa using hr
    rw [this, Bool.false_and]

theorem refer_core {H D F F' S rel : List Byte} {P Q : Buf} (so : Nat) (f : Flags) (hH : H.length = 4) (hD : D.length = 4) (hF : F.length = 4)
    (hF' : F'.length = 4) (hS : S.length = 4) (hrel : rel.length = 8) (hQ : 8 < Q.length) (hso : so = 28 + P.length) :
    ((store ((H ++ D ++ F).map some ++ List.replicate 16 none ++ (P ++ Q)) 8 F').bind fun m =>
      (store m so rel).bind fun m =>
        if so + 8 < m.length then (store (m.take (so + 8)) 0 S).bind fun m => Res.ok (Req.mk m so f) else .ok ⟨m, so, f⟩) =
      .ok ⟨(S ++ D ++ F').map some ++ List.replicate 16 none ++ (P ++ rel.map some), so, f⟩ := by
  subst hso
  rw [show (H ++ D ++ F).map some ++ List.replicate 16 none ++ (P ++ Q) =
      (H ++ D).map some ++ F.map some ++ (List.replicate 16 none ++ (P ++ Q)) from by simp [-List.reduceReplicate],
    store_mid (by simp [hH, hD]) (by simp [hF, hF']), okBind,
    show (H ++ D).map some ++ F'.map some ++ (List.replicate 16 none ++ (P ++ Q)) =
      ((H ++ D ++ F').map some ++ List.replicate 16 none ++ P) ++ Q.take 8 ++ Q.drop 8 from by
        rw [List.append_assoc _ (Q.take 8), List.take_append_drop]; simp [-List.reduceReplicate],
    store_mid (by simp [hH, hD, hF']; omega) (by rw [hrel, List.length_take]; omega), okBind,
    if_pos (by simp [hH, hD, hF', hrel]; omega)]
  rw [List.take_left' (by simp [hH, hD, hF', hrel]; omega),
    show ((H ++ D ++ F').map some ++ List.replicate 16 none ++ P) ++ rel.map some =
      [] ++ H.map some ++ ((D ++ F').map some ++ List.replicate 16 none ++ (P ++ rel.map some)) from by simp [-List.reduceReplicate],
    store_mid (by rfl) (by simp [hH, hS]), okBind]
  simp [-List.reduceReplicate]

theorem refer_image {cfg : Cfg} {d d' : DInfo} {did did' : Nat} {bs bs' : List Blk} (h : Spec.SelOK d bs) (h' : Spec.SelOK d' bs')
    (h8 : 8 < (selBytes cfg d bs).length) (mo mo' mdsize : Nat) (foff : Int) (data data' : List Byte) :
    (refer (image cfg d did bs) (image cfg d' did' bs') ((mo' : Int) - mdsize)).bind (fun r => place r data.length foff) =
      .ok (({ mkRef (mkWReq cfg d did bs mo data) (mkWReq cfg d' did' bs' mo' data') mdsize with foff := foff } : WReq).bytes.map some) := by
  unfold refer
  rw [sameRec_image h h', okBind]
  generalize hfull : ((wreqFlags cfg d bs).recd && (wreqFlags cfg d' bs').recd && decide ((recOf d bs).getD 0 = (recOf d' bs').getD 0)) = full
  have hR : (wreqFlags cfg d bs).recd = false → full = false := by
    intro e
    rw [e] at hfull
    simpa using hfull.symm
  have hfl : (mkRef (mkWReq cfg d did bs mo data) (mkWReq cfg d' did' bs' mo' data') mdsize).flags =
      { wreqFlags cfg d bs with ref := true, defl := false, recd := (wreqFlags cfg d bs).recd && !full } := by
    rw [← hfull]
    rfl
  have hbytes : ({ mkRef (mkWReq cfg d did bs mo data) (mkWReq cfg d' did' bs' mo' data') mdsize with foff := foff } : WReq).bytes =
      (sleN 4 ((28 + (if ((wreqFlags cfg d bs).recd && !full) then 8 else 0) + 8 : Nat) : Int) ++ sleN 4 did ++
        leN 4 ({ wreqFlags cfg d bs with ref := true, defl := false, recd := (wreqFlags cfg d bs).recd && !full } : Flags).toNat ++
        sleN 8 foff ++ sleN 8 data.length) ++ (if ((wreqFlags cfg d bs).recd && !full) then leN 8 ((recOf d bs).getD 0) else []) ++
        sleN 8 ((mo' : Int) - mdsize) := by
    unfold WReq.bytes WReq.metaSize WReq.selOff
    simp only [hfl]
    have hsel : (mkRef (mkWReq cfg d did bs mo data) (mkWReq cfg d' did' bs' mo' data') mdsize).selBuf = sleN 8 ((mo' : Int) - mdsize) := rfl
    rw [hsel, sleN_length]
    rfl
  rw [hbytes]
  simp only [image]
  generalize hff : ({ wreqFlags cfg d bs with ref := true, defl := false, recd := (wreqFlags cfg d bs).recd && !full } : Flags) = ff
  rcases Bool.eq_false_or_eq_true (wreqFlags cfg d bs).recd with hrec | hrec
  rotate_left
  · have := hR hrec
    subst this
    simp only [hrec, Bool.false_eq_true, if_false, Bool.false_and, List.map_nil]
    rw [refer_core 28 ff (by simp) (by simp) (by simp) (by simp) (by simp) (by simp) (by simpa using h8) (by simp), okBind, place_eq (by simp)]
    simp
  · cases full with
    | false =>
      simp only [hrec, Bool.false_eq_true, if_false, if_true, Bool.not_false, Bool.and_true]
      rw [refer_core 36 ff (by simp) (by simp) (by simp) (by simp) (by simp) (by simp) (by simpa using h8) (by simp), okBind,
        place_eq (by simp)]
      simp
    | true =>
      simp only [hrec, Bool.false_eq_true, if_false, if_true, Bool.not_true, Bool.and_false]
      rw [show (leN 8 ((recOf d bs).getD 0)).map some ++ (selBytes cfg d bs).map some =
        [] ++ ((leN 8 ((recOf d bs).getD 0)).map some ++ (selBytes cfg d bs).map some) from rfl]
      rw [refer_core 28 ff (by simp) (by simp) (by simp) (by simp) (by simp) (by simp) (by simp; omega) (by simp), okBind,
        place_eq (by simp)]
      simp

end Verif.WMem
