import Verif.Lemmas.Box
import Verif.Lemmas.ParseLog

namespace Verif

open Spec (AW inBox InBlk)

/-- A search result without the field that only matters for filtered datasets. -/
def Hit.noX (h : Hit) : Hit := { h with xsize := 0 }

/-- All counts fit in an `int`. -/
def CountsFit (b : Blk) : Prop := ∀ x ∈ b.count, x < 2 ^ 31

/-- The search result for one written block and one requested block. -/
def hitOf (q : RReq) (rb : Blk) (soff : Nat) (foff fsize : Int) (s : MSel) : List Hit :=
  match intersect s.start s.count rb.start rb.count with
  | none => []
  | some (os, oc) =>
    [{ d := q.d, dsize := s.count, dstart := subs os s.start, msize := rb.count,
       mstart := subs os rb.start, count := oc, xsize := 0, doff := s.doff,
       xbuf := q.xbuf + soff, foff := foff, fsize := fsize }]

/-- The search results of a request for a sequence of writes. -/
def hitsOf (q : RReq) (xs : List (AW × WReq)) : List Hit :=
  (withOffs q.d.esize 0 q.bs).flatMap (fun p =>
    (xs.filter (fun x => decide (x.1.did = q.did))).flatMap (fun x =>
      (Spec.sels x.1.d.esize x.1.bs).flatMap (hitOf q p.1 p.2 x.2.hdr.foff x.2.hdr.fsize)))

theorem fitsInt_of_subarray : ∀ {c oc ds : List Nat}, (∀ x ∈ c, x < 2 ^ 31) → oc.length = c.length →
    ds.length = c.length → subarrayOK c oc ds = true → fitsInt oc = true ∧ fitsInt ds = true
  | [], [], [], _, _, _, _ => by simp [fitsInt]
  | c :: cs, o :: os, d :: ds, hc, h1, h2, h => by
    simp only [subarrayOK, Bool.and_eq_true, decide_eq_true_eq] at h
    simp only [List.length_cons, Nat.add_right_cancel_iff] at h1 h2
    have ih := fitsInt_of_subarray (fun x hx => hc x (by simp [hx])) h1 h2 h.2
    have := hc c (by simp)
    simp only [fitsInt, List.all_cons, Bool.and_eq_true, decide_eq_true_eq] at *
    exact ⟨⟨by omega, ih.1⟩, by omega, ih.2⟩
  | [], _ :: _, _, _, h, _, _ => by simp at h
  | [], [], _ :: _, _, _, h, _ => by simp at h
  | _ :: _, [], _, _, h, _, _ => by simp at h
  | _ :: _, _ :: _, [], _, _, h, _ => by simp at h

theorem fitsInt_of_all {l : List Nat} (h : ∀ x ∈ l, x < 2 ^ 31) : fitsInt l = true := by
  simpa [fitsInt] using h

theorem subs_length {a b : List Nat} (h : a.length = b.length) : (subs a b).length = a.length := by
  simp [subs, h]

/-- One block: the result constructed by the code. -/
theorem mkHit_ok {q : RReq} {rb : Blk} {soff : Nat} {foff fsize : Int} {xsize : Nat} {s : MSel}
    {os oc : List Nat} (h1 : s.start.length = s.count.length) (h2 : rb.start.length = s.start.length)
    (h3 : rb.count.length = s.start.length) (hc : ∀ x ∈ s.count, x < 2 ^ 31) (hr : CountsFit rb)
    (hi : intersect s.start s.count rb.start rb.count = some (os, oc)) :
    ∃ h, mkHit q rb soff foff fsize xsize s.start s.count s.doff os oc = .ok h ∧
      [h.noX] = hitOf q rb soff foff fsize s ∧ h.count = oc := by
  obtain ⟨i1, i2, _, i4, i5, _⟩ := intersect_some h1 h2 h3 hi
  have f1 := fitsInt_of_subarray hc (by omega) (by rw [subs_length i1]; omega) i4
  have f2 := fitsInt_of_subarray hr (by omega) (by rw [subs_length (by omega)]; omega) i5
  unfold mkHit
  simp only [f1.1, f1.2, f2.2, fitsInt_of_all hc, fitsInt_of_all hr, Bool.and_true, if_true]
  refine ⟨_, rfl, ?_, rfl⟩
  unfold hitOf
  rw [hi]
  rfl

theorem flatMapRes_ok {α β γ : Type} {f : α → Res (List β)} {g : α → List γ} {π : β → γ} {l : List α}
    (h : ∀ a ∈ l, ∃ r, f a = .ok r ∧ r.map π = g a) :
    ∃ r, flatMapRes f l = .ok r ∧ r.map π = l.flatMap g := by
  induction l with
  | nil => exact ⟨[], rfl, rfl⟩
  | cons a l ih =>
    obtain ⟨r, h1, h2⟩ := h a (by simp)
    obtain ⟨rs, h3, h4⟩ := ih (fun b hb => h b (by simp [hb]))
    refine ⟨r ++ rs, ?_, by simp [h2, h4]⟩
    unfold flatMapRes
    rw [h1]; simp only [Res.ok_bind]
    rw [h3]; rfl

theorem mem_sels {e : Nat} {bs : List Blk} {s : MSel} (h : s ∈ Spec.sels e bs) :
    ∃ i, ∃ hi : i < bs.length,
      s = MSel.mk (bs[i]).start (bs[i]).count (Spec.dataOffset e bs i) := by
  unfold Spec.sels at h
  rw [List.mem_mapIdx] at h
  obtain ⟨i, hi, rfl⟩ := h
  exact ⟨i, hi, rfl⟩

/-- A requested block fits the dataset and the fixed-width fields. -/
structure TgtOK (ndim : Nat) (rb : Blk) : Prop where
  hs : rb.start.length = ndim
  hc : rb.count.length = ndim
  fit : CountsFit rb

/-- A write fits the `int` fields of search results. -/
def SrcFit (w : AW) : Prop := ∀ b ∈ w.bs, CountsFit b

theorem searchEntL_ok {q : RReq} {rb : Blk} {soff : Nat} {x : AW × WReq} {e : MEnt}
    (he : EntOK x e) (hw : Spec.SelOK x.1.d x.1.bs) (hs : SrcFit x.1) (hr : TgtOK x.1.d.ndim rb) :
    ∃ hs, searchEntL q rb soff e = .ok hs ∧
      hs.map Hit.noX = (Spec.sels x.1.d.esize x.1.bs).flatMap
        (hitOf q rb soff x.2.hdr.foff x.2.hdr.fsize) := by
  unfold searchEntL
  rw [he.1, he.2]
  apply flatMapRes_ok
  intro s hsm
  obtain ⟨i, hi, rfl⟩ := mem_sels hsm
  have hb := hw.blk _ (List.getElem_mem hi)
  have hb2 := hs _ (List.getElem_mem hi)
  cases hin : intersect (x.1.bs[i]).start (x.1.bs[i]).count rb.start rb.count with
  | none =>
    refine ⟨[], by simp, ?_⟩
    unfold hitOf; simp only [hin]; rfl
  | some o =>
    obtain ⟨os, oc⟩ := o
    obtain ⟨h, h1, h2, _⟩ := mkHit_ok (q := q) (soff := soff) (foff := x.2.hdr.foff)
      (fsize := x.2.hdr.fsize) (xsize := e.dsize)
      (s := { start := (x.1.bs[i]).start, count := (x.1.bs[i]).count,
              doff := Spec.dataOffset x.1.d.esize x.1.bs i })
      (by simp only; rw [hb.hs, hb.hc]) (by simp only; rw [hb.hs, hr.hs])
      (by simp only; rw [hb.hs, hr.hc]) hb2 hr.fit hin
    exact ⟨[h], by simp only [h1]; rfl, h2⟩

theorem withOffs_mem {e acc : Nat} {bs : List Blk} {p : Blk × Nat} (h : p ∈ withOffs e acc bs) :
    p.1 ∈ bs := by
  induction bs generalizing acc with
  | nil => simp [withOffs] at h
  | cons b bs ih =>
    simp only [withOffs, List.mem_cons] at h
    rcases h with rfl | h
    · simp
    · simp [ih h]

theorem flatMapRes_forall₂ {α β γ δ : Type} {R : α → β → Prop} {f : β → Res (List γ)} {g : α → List δ}
    {π : γ → δ} {xs : List α} {es : List β} (hR : List.Forall₂ R xs es)
    (h : ∀ x ∈ xs, ∀ e, R x e → ∃ r, f e = .ok r ∧ r.map π = g x) :
    ∃ r, flatMapRes f es = .ok r ∧ r.map π = xs.flatMap g := by
  induction hR with
  | nil => exact ⟨[], rfl, rfl⟩
  | @cons x e xs es h1 _ ih =>
    obtain ⟨r, a1, a2⟩ := h x (by simp) e h1
    obtain ⟨rs, b1, b2⟩ := ih (fun y hy => h y (by simp [hy]))
    refine ⟨r ++ rs, ?_, by simp [a2, b2]⟩
    unfold flatMapRes
    rw [a1]; simp only [Res.ok_bind]
    rw [b1]; rfl

theorem forall₂_filter_both {α β : Type} {R : α → β → Prop} {p : α → Bool} {p' : β → Bool}
    {xs : List α} {es : List β} (hR : List.Forall₂ R xs es) (h : ∀ x e, R x e → p x = p' e) :
    List.Forall₂ R (xs.filter p) (es.filter p') := by
  induction hR with
  | nil => exact List.Forall₂.nil
  | @cons x e xs es h1 _ ih =>
    simp only [List.filter_cons, ← h x e h1]
    split
    · exact List.Forall₂.cons h1 ih
    · exact ih

/-- Conditions on a request and the log entries for the search to be exact. -/
structure ReqOK (q : RReq) (xs : List (AW × WReq)) : Prop where
  did : ∀ x ∈ xs, x.2.hdr.did = (x.1.did : Int)
  same : ∀ x ∈ xs, x.1.did = q.did → DSame q.d x.1.d
  sel : ∀ x ∈ xs, Spec.SelOK x.1.d x.1.bs
  fit : ∀ x ∈ xs, SrcFit x.1
  tgt : ∀ b ∈ q.bs, TgtOK q.d.ndim b

theorem searchL_ok {q : RReq} {xs : List (AW × WReq)} {es : List MEnt} (hq : ReqOK q xs)
    (h : List.Forall₂ EntOK xs es) :
    ∃ hs, searchL es q = .ok hs ∧ hs.map Hit.noX = hitsOf q xs := by
  unfold searchL hitsOf
  apply flatMapRes_ok
  intro p hp
  have hF : List.Forall₂ (fun x e => EntOK x e ∧ x ∈ xs) xs es := by
    have : List.Forall₂ (fun x e => x ∈ xs ∧ EntOK x e) xs es := by
      rw [List.forall₂_and_left]
      exact ⟨fun x hx => hx, h⟩
    exact this.imp (fun _ _ h => ⟨h.2, h.1⟩)
  have hF2 := forall₂_filter_both (p := fun x => decide (x.1.did = q.did))
    (p' := fun e => e.hdr.did == (q.did : Int)) hF (by
      rintro x e ⟨he, hx⟩
      rw [he.1, hq.did x hx]
      by_cases hd : x.1.did = q.did
      · simp [hd]
      · have : ¬ ((x.1.did : Int) = (q.did : Int)) := by omega
        simp [hd]; exact this)
  refine flatMapRes_forall₂ hF2 ?_
  rintro x hx e ⟨he, hxm⟩
  simp only [List.mem_filter, decide_eq_true_eq] at hx
  have hs := hq.same x hxm hx.2
  have ht := hq.tgt p.1 (withOffs_mem hp)
  rw [hs.1] at ht
  exact searchEntL_ok he (hq.sel x hxm) (hq.fit x hxm) ht

/-! ### Compact index -/

theorem cblocks_flat {k r : Nat} {bs : List Blk}
    (h : ∀ b ∈ bs, b.start.length = k + r ∧ b.count.length = k + r) :
    cblocks k bs.length (bs.flatMap (fun b => b.start.drop r ++ b.count.drop r)) =
      .ok (bs.map (fun b => { start := b.start.drop r, count := b.count.drop r })) := by
  induction bs with
  | nil => rfl
  | cons b bs ih =>
    have hb := h b (by simp)
    have l1 : (b.start.drop r).length = k := by simp [hb.1]
    have l2 : (b.count.drop r).length = k := by simp [hb.2]
    simp only [List.length_cons, List.flatMap_cons, cblocks]
    rw [if_neg (by simp only [List.length_append, l1, l2]; omega)]
    have d1 : List.drop (2 * k) ((b.start.drop r ++ b.count.drop r) ++
        bs.flatMap (fun b => b.start.drop r ++ b.count.drop r))
        = bs.flatMap (fun b => b.start.drop r ++ b.count.drop r) := by
      rw [List.drop_left']; simp only [List.length_append, l1, l2]; omega
    have d2 : List.take k ((b.start.drop r ++ b.count.drop r) ++
        bs.flatMap (fun b => b.start.drop r ++ b.count.drop r)) = b.start.drop r := by
      rw [List.append_assoc, List.take_left' l1]
    have d3 : List.take k (List.drop k ((b.start.drop r ++ b.count.drop r) ++
        bs.flatMap (fun b => b.start.drop r ++ b.count.drop r))) = b.count.drop r := by
      rw [List.append_assoc, List.drop_left' l1, List.take_left' l2]
    rw [d1, d2, d3, ih (fun b hb => h b (by simp [hb]))]
    rfl

/-- Offsets computed on the fly are those of the specification. -/
theorem blkDoffs_eq (e : Nat) (bs : List Blk) : ∀ acc,
    blkDoffs e acc bs = bs.mapIdx (fun i b =>
      MSel.mk b.start b.count (acc + e * ((bs.take i).map Blk.size).sum)) := by
  induction bs with
  | nil => intro acc; rfl
  | cons b bs ih =>
    intro acc
    rw [blkDoffs, ih]
    simp only [List.mapIdx_cons, List.take_zero, List.map_nil, List.sum_nil, Nat.mul_zero, Nat.add_zero,
      List.take_succ_cons, List.map_cons, List.sum_cons, Blk.size, Nat.mul_add, Nat.add_assoc]

theorem i32_of_small {x : Int} (h1 : -(2 ^ 31 : Int) ≤ x) (h2 : x < 2 ^ 31) : i32 x = x := by
  unfold i32 signed
  have e : (256 ^ 4 : Nat) = 4294967296 := rfl
  rw [e]
  by_cases h0 : 0 ≤ x
  · rw [Int.emod_eq_of_lt h0 (by omega)]
    split <;> omega
  · have : x % 2 ^ 32 = x + 2 ^ 32 := by
      rw [← Int.add_emod_right, Int.emod_eq_of_lt (by omega) (by omega)]
    rw [this]
    split <;> omega

theorem intersect_rec {n rs rc : Nat} {ss cs rss rcs : List Nat} :
    intersect (n :: ss) (1 :: cs) (rs :: rss) (rc :: rcs) =
      if rs ≤ n ∧ n < rs + rc then
        (intersect ss cs rss rcs).map (fun r => (n :: r.1, 1 :: r.2))
      else none := by
  simp only [intersect]
  by_cases h : rs ≤ n ∧ n < rs + rc
  · rw [if_pos h, if_neg (by omega)]
    have e1 : max n rs = n := by omega
    have e2 : min (n + 1) (rs + rc) - n = 1 := by omega
    rw [e1, e2]
  · rw [if_neg h, if_pos (by omega)]

/-- Additional conditions for the compact index: record numbers are handled as `int`. -/
structure CReqOK (q : RReq) (xs : List (AW × WReq)) : Prop where
  recs : ∀ x ∈ xs, x.1.did = q.did → ∀ n, recOf x.1.d x.1.bs = some n → n < 2 ^ 31
  tgt : ∀ b ∈ q.bs, ∀ n, b.start.head? = some n → n < 2 ^ 31

theorem sels_eq_blkDoffs (e : Nat) (bs : List Blk) : blkDoffs e 0 bs = Spec.sels e bs := by
  rw [blkDoffs_eq]
  unfold Spec.sels Spec.dataOffset
  simp

theorem sels_getElem {e : Nat} {bs : List Blk} {i : Nat} (h : i < (Spec.sels e bs).length) :
    (Spec.sels e bs)[i] = MSel.mk (bs[i]'(by simpa [Spec.sels] using h)).start
      (bs[i]'(by simpa [Spec.sels] using h)).count (Spec.dataOffset e bs i) := by
  simp [Spec.sels]

/-- Blocks of a record write without the record dimension: same data offsets. -/
theorem sels_drop {e : Nat} {bs : List Blk} (h : ∀ b ∈ bs, b.count.head? = some 1) :
    Spec.sels e (bs.map (fun b => Blk.mk (b.start.drop 1) (b.count.drop 1))) =
      (Spec.sels e bs).map (fun s => MSel.mk (s.start.drop 1) (s.count.drop 1) s.doff) := by
  apply List.ext_getElem
  · simp [Spec.sels]
  · intro i h1 h2
    rw [List.getElem_map, sels_getElem, sels_getElem]
    simp only [List.getElem_map, MSel.mk.injEq, true_and]
    unfold Spec.dataOffset
    congr 1
    rw [← List.map_take, List.map_map]
    congr 1
    apply List.map_congr_left
    intro b hb
    have hb' := h b (List.mem_of_mem_take hb)
    unfold Blk.size
    cases hc : b.count with
    | nil => rw [hc] at hb'; simp at hb'
    | cons c cs =>
      rw [hc] at hb'
      simp only [List.head?_cons, Option.some.injEq] at hb'
      subst hb'
      simp [prod, hc]

theorem signed8_small {n : Nat} (h : n < 2 ^ 31) : signed 8 n = n := by
  unfold signed
  rw [if_pos]
  have : (256 ^ 8 : Nat) = 18446744073709551616 := rfl
  rw [this]; omega

theorem searchEntC_ok {q : RReq} {rb : Blk} {soff : Nat} {x : AW × WReq} {e : CEnt}
    (he : CEntOK x e) (hw : Spec.SelOK x.1.d x.1.bs) (hs : SrcFit x.1) (hr : TgtOK x.1.d.ndim rb)
    (hd : DSame q.d x.1.d) (hrec : ∀ n, recOf x.1.d x.1.bs = some n → n < 2 ^ 31)
    (htgt : ∀ n, rb.start.head? = some n → n < 2 ^ 31) :
    ∃ hs, searchEntC q rb soff e = .ok hs ∧
      hs.map Hit.noX = (Spec.sels x.1.d.esize x.1.bs).flatMap
        (hitOf q rb soff x.2.hdr.foff x.2.hdr.fsize) := by
  obtain ⟨_, hfo, hfs, hre, hbl⟩ := he
  unfold searchEntC
  rw [hbl, hre, hfo, hfs]
  cases hrc : recOf x.1.d x.1.bs with
  | none =>
    have hr0 : recDims x.1.d x.1.bs = 0 := by unfold recDims; rw [hrc]; rfl
    simp only
    rw [if_neg (by omega), hr0, hd.1, hd.2]
    have hcb := cblocks_flat (k := x.1.d.ndim) (r := 0) (bs := x.1.bs)
      (fun b hb => ⟨by rw [(hw.blk b hb).hs]; rfl, by rw [(hw.blk b hb).hc]; rfl⟩)
    rw [hcb]
    simp only [Res.ok_bind, List.drop_zero, List.map_id']
    rw [sels_eq_blkDoffs]
    apply flatMapRes_ok
    intro s hsm
    obtain ⟨i, hi, rfl⟩ := mem_sels hsm
    have hb := hw.blk _ (List.getElem_mem hi)
    have hb2 := hs _ (List.getElem_mem hi)
    cases hin : intersect (x.1.bs[i]).start (x.1.bs[i]).count rb.start rb.count with
    | none =>
      refine ⟨[], by simp, ?_⟩
      unfold hitOf; simp only [hin]; rfl
    | some o =>
      obtain ⟨os, oc⟩ := o
      obtain ⟨h, h1, h2, _⟩ := mkHit_ok (q := q) (soff := soff) (foff := x.2.hdr.foff)
        (fsize := x.2.hdr.fsize) (xsize := e.dsize)
        (s := MSel.mk (x.1.bs[i]).start (x.1.bs[i]).count (Spec.dataOffset x.1.d.esize x.1.bs i))
        (by simp only; rw [hb.hs, hb.hc]) (by simp only; rw [hb.hs, hr.hs])
        (by simp only; rw [hb.hs, hr.hc]) hb2 hr.fit hin
      exact ⟨[h], by simp only [h1]; rfl, h2⟩
  | some n =>
    have hr1 : recDims x.1.d x.1.bs = 1 := by unfold recDims; rw [hrc]; rfl
    have hheads := (recOf_some hrc).2
    have hn := hrec n hrc
    have hnd : 1 ≤ x.1.d.ndim := by have := recDims_le x.1.d x.1.bs; omega
    simp only
    rw [signed8_small hn, if_pos (by omega), hr1]
    cases hrs : rb.start with
    | nil => have := hr.hs; rw [hrs] at this; simp at this; omega
    | cons rs rss =>
      cases hrcn : rb.count with
      | nil => have := hr.hc; rw [hrcn] at this; simp at this; omega
      | cons rc rcs =>
        have hrs31 := htgt rs (by rw [hrs]; rfl)
        have hrc31 := hr.fit rc (by rw [hrcn]; simp)
        have hl1 : rss.length = x.1.d.ndim - 1 := by have := hr.hs; rw [hrs] at this; simp at this; omega
        have hl2 : rcs.length = x.1.d.ndim - 1 := by have := hr.hc; rw [hrcn] at this; simp at this; omega
        simp only
        rw [i32_of_small (x := (n : Int) - rs) (by omega) (by omega),
          i32_of_small (x := (rc : Int)) (by omega) (by omega)]
        -- shape of the written blocks
        have hshape : ∀ s ∈ Spec.sels x.1.d.esize x.1.bs, ∃ ss cs, s.start = n :: ss ∧
            s.count = 1 :: cs ∧ ss.length = x.1.d.ndim - 1 ∧ cs.length = x.1.d.ndim - 1 ∧
            (∀ y ∈ cs, y < 2 ^ 31) := by
          intro s hsm
          obtain ⟨i, hi, rfl⟩ := mem_sels hsm
          have hb := hw.blk _ (List.getElem_mem hi)
          have hb2 := hs _ (List.getElem_mem hi)
          have hh := hheads _ (List.getElem_mem hi)
          have e1 := head_drop hh.1
          have e2 := head_drop hh.2
          refine ⟨_, _, e1.symm, e2.symm, ?_, ?_, ?_⟩
          · simp [hb.hs]
          · simp [hb.hc]
          · intro y hy; exact hb2 y (List.mem_of_mem_drop hy)
        by_cases hcond : ((n : Int) - rs < 0 ∨ (n : Int) - rs ≥ rc)
        · rw [if_pos hcond]
          refine ⟨[], rfl, ?_⟩
          symm
          simp only [List.map_nil]
          rw [List.flatMap_eq_nil_iff]
          intro s hsm
          obtain ⟨ss, cs, es, ec, _⟩ := hshape s hsm
          unfold hitOf
          rw [es, ec, hrs, hrcn, intersect_rec, if_neg (by omega)]
        · rw [if_neg hcond]
          have hcb := cblocks_flat (k := x.1.d.ndim - 1) (r := 1) (bs := x.1.bs)
            (fun b hb => ⟨by rw [(hw.blk b hb).hs]; omega, by rw [(hw.blk b hb).hc]; omega⟩)
          rw [hd.1, hcb]
          simp only [Res.ok_bind]
          rw [sels_eq_blkDoffs, hd.2, sels_drop (fun b hb => (hheads b hb).2), ]
          have hgen := flatMapRes_ok (π := Hit.noX)
            (f := fun s : MSel => match intersect s.start s.count rss rcs with
              | none => Res.ok []
              | some (os, oc) => do
                let h ← mkHit q { start := rss, count := rcs } soff x.2.hdr.foff x.2.hdr.fsize e.dsize
                  s.start s.count s.doff os oc
                if fitsInt [rc] then
                  return [{ h with dstart := 0 :: h.dstart, dsize := 1 :: h.dsize,
                                   mstart := ((n : Int) - rs).toNat :: h.mstart, msize := rc :: h.msize,
                                   count := 1 :: h.count }]
                else .ub)
            (g := fun s : MSel => hitOf q rb soff x.2.hdr.foff x.2.hdr.fsize
              (MSel.mk (n :: s.start) (1 :: s.count) s.doff))
            (l := (Spec.sels x.1.d.esize x.1.bs).map
              (fun s => MSel.mk (s.start.drop 1) (s.count.drop 1) s.doff)) (by
            intro s hsm
            rw [List.mem_map] at hsm
            obtain ⟨s0, hs0, rfl⟩ := hsm
            obtain ⟨ss, cs, es, ec, l1, l2, hfit⟩ := hshape s0 hs0
            simp only [es, ec, List.drop_succ_cons, List.drop_zero]
            unfold hitOf
            simp only [hrs, hrcn, intersect_rec]
            rw [if_pos (by omega)]
            cases hin : intersect ss cs rss rcs with
            | none => exact ⟨[], rfl, rfl⟩
            | some o =>
              obtain ⟨os, oc⟩ := o
              obtain ⟨h, h1, h2, _⟩ := mkHit_ok (q := q) (rb := { start := rss, count := rcs })
                (soff := soff) (foff := x.2.hdr.foff) (fsize := x.2.hdr.fsize) (xsize := e.dsize)
                (s := MSel.mk ss cs s0.doff) (by simp only; omega) (by simp only; omega)
                (by simp only; omega) hfit
                (fun y hy => hr.fit y (by rw [hrcn]; simp at hy; simp [hy])) hin
              simp only at h1
              simp only [h1]
              have hf : fitsInt [rc] = true := fitsInt_of_all (by simpa using hrc31)
              simp only [Res.ok_bind, hf, if_true]
              refine ⟨_, rfl, ?_⟩
              unfold hitOf at h2
              simp only [hin, List.cons.injEq, and_true] at h2
              simp only [Option.map_some, List.map_cons, List.map_nil, List.cons.injEq, and_true]
              unfold Hit.noX at h2 ⊢
              simp only [Hit.mk.injEq] at h2
              obtain ⟨a1, a2, a3, a4, a5, a6, a7, a8, a9, a10, a11⟩ := h2
              simp only [a1, a2, a3, a4, a5, a6, a8, a9, a10, a11, subs, List.zipWith_cons_cons,
                Nat.sub_self, Hit.mk.injEq, List.cons.injEq, and_true, true_and]
              omega)
          obtain ⟨r, hr1, hr2⟩ := hgen
          refine ⟨r, hr1, ?_⟩
          rw [hr2, List.flatMap_map]
          apply List.flatMap_congr
          intro s hsm
          obtain ⟨ss, cs, es, ec, _⟩ := hshape s hsm
          simp only [es, ec, List.drop_succ_cons, List.drop_zero]
          congr 1
          cases s
          simp_all

theorem searchC_ok {q : RReq} {xs : List (AW × WReq)} {es : List CEnt} (hq : ReqOK q xs)
    (hc : CReqOK q xs) (h : List.Forall₂ CEntOK xs es) :
    ∃ hs, searchC es q = .ok hs ∧ hs.map Hit.noX = hitsOf q xs := by
  unfold searchC hitsOf
  apply flatMapRes_ok
  intro p hp
  have hF : List.Forall₂ (fun x e => CEntOK x e ∧ x ∈ xs) xs es := by
    have : List.Forall₂ (fun x e => x ∈ xs ∧ CEntOK x e) xs es := by
      rw [List.forall₂_and_left]
      exact ⟨fun x hx => hx, h⟩
    exact this.imp (fun _ _ h => ⟨h.2, h.1⟩)
  have hF2 := forall₂_filter_both (p := fun x => decide (x.1.did = q.did))
    (p' := fun e => e.did == (q.did : Int)) hF (by
      rintro x e ⟨he, hx⟩
      rw [he.1, hq.did x hx]
      by_cases hd : x.1.did = q.did
      · simp [hd]
      · have : ¬ ((x.1.did : Int) = (q.did : Int)) := by omega
        simp [hd]; exact this)
  refine flatMapRes_forall₂ hF2 ?_
  rintro x hx e ⟨he, hxm⟩
  simp only [List.mem_filter, decide_eq_true_eq] at hx
  have hs := hq.same x hxm hx.2
  have ht := hq.tgt p.1 (withOffs_mem hp)
  rw [hs.1] at ht
  exact searchEntC_ok he (hq.sel x hxm) (hq.fit x hxm) ht hs (hc.recs x hxm hx.2)
    (hc.tgt p.1 (withOffs_mem hp))

end Verif
