import Verif.Lemmas.Share
import Verif.Model.Index

namespace Verif

open Spec (AW)

/-- Request of a write that is recorded in full. -/
def AW.plain (cfg : Cfg) (w : AW) (mo : Nat) (foff : Int) : WReq :=
  plainReq cfg w.d w.did w.bs mo foff w.data

/-- Request of a write recorded as a reference to the entry of `w'` at offset `mo'`. -/
def AW.refTo (cfg : Cfg) (w w' : AW) (mo' mo : Nat) (foff : Int) : WReq :=
  { mkRef (AW.plain cfg w mo 0) (AW.plain cfg w' mo' 0) mo with foff := foff }

/-- Total size of the metadata of a list of requests. -/
def msize (xs : List (AW × WReq)) : Nat := (xs.map (fun x => x.2.metaSize)).sum

/-- Metadata bytes of a list of requests. -/
def mbytes (xs : List (AW × WReq)) : List Byte := xs.flatMap (fun x => x.2.bytes)

theorem WReq.bytes_length (r : WReq) : r.bytes.length = r.metaSize := by
  unfold WReq.metaSize WReq.bytes WReq.selOff
  split <;> simp [hdrSize] <;> omega

theorem WReq.metaSize_pos (r : WReq) : 28 ≤ r.metaSize := by
  unfold WReq.metaSize WReq.selOff hdrSize; omega

@[simp] theorem mbytes_length (xs : List (AW × WReq)) : (mbytes xs).length = msize xs := by
  induction xs with
  | nil => rfl
  | cons x xs ih => simp [mbytes, msize] at *; rw [ih, WReq.bytes_length]

@[simp] theorem msize_nil : msize [] = 0 := rfl
@[simp] theorem msize_cons (x : AW × WReq) (xs : List (AW × WReq)) :
    msize (x :: xs) = x.2.metaSize + msize xs := by simp [msize]
@[simp] theorem msize_append (xs ys : List (AW × WReq)) : msize (xs ++ ys) = msize xs + msize ys := by
  simp [msize]
@[simp] theorem mbytes_nil : mbytes [] = [] := rfl
@[simp] theorem mbytes_cons (x : AW × WReq) (xs : List (AW × WReq)) :
    mbytes (x :: xs) = x.2.bytes ++ mbytes xs := by simp [mbytes]
@[simp] theorem mbytes_append (xs ys : List (AW × WReq)) : mbytes (xs ++ ys) = mbytes xs ++ mbytes ys := by
  simp [mbytes]

/-- A write that the deduplication may record as a reference to the entry of the write `w'`. -/
def Shares (cfg : Cfg) (w' w : AW) : Prop :=
  selBytes cfg w'.d w'.bs = selBytes cfg w.d w.bs ∧ recDims w'.d w'.bs = recDims w.d w.bs

/-- The first of the writes that share an entry with `w`: none of the writes `p1` before it does. -/
def First (cfg : Cfg) (p1 : List (AW × WReq)) (w : AW) : Prop :=
  8 < (selBytes cfg w.d w.bs).length ∧ ∀ x ∈ p1, ¬ Shares cfg x.1 w

theorem Shares.symm {cfg : Cfg} {w' w : AW} (h : Shares cfg w' w) : Shares cfg w w' := ⟨h.1.symm, h.2.symm⟩

theorem Shares.trans {cfg : Cfg} {a b c : AW} (h : Shares cfg a b) (h' : Shares cfg b c) : Shares cfg a c :=
  ⟨h.1.trans h'.1, h.2.trans h'.2⟩

theorem First.of_shares {cfg : Cfg} {p1 : List (AW × WReq)} {w' w : AW} (h : First cfg p1 w') (hs : Shares cfg w' w) :
    First cfg p1 w :=
  ⟨hs.1 ▸ h.1, fun x hx hx' => h.2 x hx (hx'.trans hs.symm)⟩

/-- The write whose entry the entry of `w` refers to. -/
def Orig (cfg : Cfg) (prev : List (AW × WReq)) (w : AW) (x : AW × WReq) : Prop :=
  ∃ p1 p2, prev = p1 ++ x :: p2 ∧ First cfg p1 w ∧ Shares cfg x.1 w

theorem Orig.mem {cfg : Cfg} {prev : List (AW × WReq)} {w : AW} {x : AW × WReq} (h : Orig cfg prev w x) : x ∈ prev := by
  obtain ⟨p1, p2, e, _, _⟩ := h
  rw [e]; simp

theorem Orig.shares {cfg : Cfg} {prev : List (AW × WReq)} {w : AW} {x : AW × WReq} (h : Orig cfg prev w x) :
    Shares cfg x.1 w := by
  obtain ⟨_, _, _, _, h⟩ := h
  exact h

theorem Orig.unique {cfg : Cfg} {w : AW} {x y : AW × WReq} : ∀ {prev : List (AW × WReq)}, Orig cfg prev w x →
    Orig cfg prev w y → x = y := by
  intro prev
  induction prev with
  | nil => rintro ⟨p1, p2, e, _⟩; simp at e
  | cons z prev ih =>
    rintro ⟨p1, p2, e1, f1, s1⟩ ⟨q1, q2, e2, f2, s2⟩
    cases p1 with
    | nil =>
      cases q1 with
      | nil =>
        simp only [List.nil_append, List.cons.injEq] at e1 e2
        rw [← e1.1, ← e2.1]
      | cons b q1 =>
        simp only [List.nil_append, List.cons_append, List.cons.injEq] at e1 e2
        exact absurd s1 (by rw [← e1.1, e2.1]; exact f2.2 b (by simp))
    | cons a p1 =>
      cases q1 with
      | nil =>
        simp only [List.nil_append, List.cons_append, List.cons.injEq] at e1 e2
        exact absurd s2 (by rw [← e2.1, e1.1]; exact f1.2 a (by simp))
      | cons b q1 =>
        simp only [List.cons_append, List.cons.injEq] at e1 e2
        exact ih ⟨p1, p2, e1.2, ⟨f1.1, fun t ht => f1.2 t (by simp [ht])⟩, s1⟩
          ⟨q1, q2, e2.2, ⟨f2.1, fun t ht => f2.2 t (by simp [ht])⟩, s2⟩

/-- How a request may relate to the requests queued before it in the same section. -/
def SecElem (cfg : Cfg) (prev : List (AW × WReq)) (w : AW) (r : WReq) : Prop :=
  (r = AW.plain cfg w (msize prev) r.foff ∧ (cfg.share = true → 8 < (selBytes cfg w.d w.bs).length →
    ∀ x ∈ prev, ¬ Shares cfg x.1 w)) ∨
  ∃ p1 w' k p2, prev = p1 ++ (w', k) :: p2 ∧ k = AW.plain cfg w' (msize p1) k.foff ∧
    cfg.share = true ∧ selBytes cfg w'.d w'.bs = selBytes cfg w.d w.bs ∧
    recDims w'.d w'.bs = recDims w.d w.bs ∧ First cfg p1 w ∧
    r = AW.refTo cfg w w' (msize p1) (msize prev) r.foff

/-- A section of the metadata log. -/
def IsSection (cfg : Cfg) (xs : List (AW × WReq)) : Prop :=
  ∀ pre x post, xs = pre ++ x :: post → SecElem cfg pre x.1 x.2

/-- The reader's description of a dataset agrees with the writer's in what decoding depends on. -/
def DSame (d d' : DInfo) : Prop := d.ndim = d'.ndim ∧ d.esize = d'.esize

theorem metaDecode_congr {d d' : DInfo} (h : DSame d d') (buf : List Byte) (ent : Nat) :
    metaDecode d buf ent = metaDecode d' buf ent := by
  simp only [metaDecode, selsOfWords, decDsize, h.1, h.2]

theorem rdHdr_req {r : WReq} (hf : r.hdr.Fits) (pre post : List Byte) :
    rdHdr (pre ++ r.bytes ++ post) pre.length = .ok r.hdr := by
  have := rdHdr_bytes hf pre ((if r.flags.recd then leN 8 r.recnum else []) ++ r.selBuf ++ post) rfl
  simpa [WReq.bytes, WReq.hdr, List.append_assoc] using this

/-- Blocks with the record number replaced. -/
def recMap (o : Option Nat) (b : Blk) : Blk :=
  match o with
  | some n => { start := n :: b.start.drop 1, count := 1 :: b.count.drop 1 }
  | none => b

theorem recMap_none (bs : List Blk) : bs.map (recMap none) = bs :=
  (List.map_congr_left (fun _ _ => rfl)).trans (List.map_id bs)

theorem recMap_self {d : DInfo} {bs : List Blk} : bs.map (recMap (recOf d bs)) = bs := by
  cases hr : recOf d bs with
  | none => exact recMap_none bs
  | some n =>
    have h := (recOf_some hr).2
    have : ∀ b ∈ bs, recMap (some n) b = b := by
      intro b hb
      unfold recMap
      simp only
      rw [head_drop (h b hb).1, head_drop (h b hb).2]
    exact (List.map_congr_left this).trans (by simp)

theorem recMap_share {cfg : Cfg} {d d' : DInfo} {bs bs' : List Blk} (h : SelWF cfg d bs)
    (h' : SelWF cfg d' bs') (hr : recDims d bs = recDims d' bs')
    (hs : selBytes cfg d bs = selBytes cfg d' bs') : bs = bs'.map (recMap (recOf d bs)) := by
  obtain ⟨_, hl, h1, h2⟩ := selBytes_inj h h' hr hs
  have key : ∀ (o : Option Nat) (r : Nat), (r = if o.isSome then 1 else 0) →
      ∀ (as as' : List Blk), as.map (fun b => b.start.drop r) = as'.map (fun b => b.start.drop r) →
      as.map (fun b => b.count.drop r) = as'.map (fun b => b.count.drop r) →
      as.map (recMap o) = as'.map (recMap o) := by
    intro o r hor as
    induction as with
    | nil => intro as' e1 _; cases as' with
      | nil => rfl
      | cons a as' => simp at e1
    | cons a as ih =>
      intro as' e1 e2
      cases as' with
      | nil => simp at e1
      | cons a' as' =>
        simp only [List.map_cons, List.cons.injEq] at e1 e2
        simp only [List.map_cons, List.cons.injEq]
        refine ⟨?_, ih as' e1.2 e2.2⟩
        cases o with
        | none =>
          simp at hor; subst hor
          simp at e1 e2
          unfold recMap
          cases a; cases a'
          simp_all
        | some n =>
          simp at hor; subst hor
          simp only [recMap, e1.1, e2.1]
  have := key (recOf d bs) (recDims d bs) rfl bs bs' h1 h2
  rw [recMap_self] at this
  exact this

theorem recOf_isSome_of {d d' : DInfo} {bs bs' : List Blk} (hr : recDims d bs = recDims d' bs') :
    (recOf d bs).isSome = (recOf d' bs').isSome := by
  unfold recDims at hr
  revert hr
  cases (recOf d bs).isSome <;> cases (recOf d' bs').isSome <;> simp

theorem size_recMap {o : Option Nat} {b : Blk} (h : o.isSome → b.count.head? = some 1) :
    (recMap o b).size = b.size := by
  cases o with
  | none => rfl
  | some n =>
    have := head_drop (h rfl)
    simp only [recMap, Blk.size]
    rw [this]

theorem sels_map {es : Nat} {bs : List Blk} (o : Option Nat)
    (h : ∀ b ∈ bs, o.isSome → b.count.head? = some 1) :
    (Spec.sels es bs).map (setRec o) = Spec.sels es (bs.map (recMap o)) := by
  apply List.ext_getElem
  · simp [Spec.sels]
  · intro i h1 h2
    simp only [Spec.sels, List.getElem_map, List.getElem_mapIdx]
    have hd : Spec.dataOffset es (bs.map (recMap o)) i = Spec.dataOffset es bs i := by
      unfold Spec.dataOffset
      congr 2
      rw [← List.map_take, List.map_map]
      apply List.map_congr_left
      intro b hb
      exact size_recMap (h b (List.mem_of_mem_take hb))
    rw [hd]
    cases o with
    | none => rfl
    | some n => rfl

/-- Selections recovered through a reference. -/
theorem share_sels {cfg : Cfg} {w w' : AW} (es : Nat) (h : SelWF cfg w.d w.bs)
    (h' : SelWF cfg w'.d w'.bs) (hr : recDims w'.d w'.bs = recDims w.d w.bs)
    (hs : selBytes cfg w'.d w'.bs = selBytes cfg w.d w.bs) (mo' mo : Nat) (foff : Int) :
    (Spec.sels es w'.bs).map
      (setRec (if (AW.refTo cfg w w' mo' mo foff).flags.recd then
        some (AW.refTo cfg w w' mo' mo foff).recnum else none)) = Spec.sels es w.bs := by
  have hb := recMap_share h h' hr.symm hs.symm
  have hi := recOf_isSome_of hr
  have hfl : (AW.refTo cfg w w' mo' mo foff).flags.recd =
      ((recOf w.d w.bs).isSome && !((recOf w.d w.bs).isSome && (recOf w'.d w'.bs).isSome
        && decide ((recOf w.d w.bs).getD 0 = (recOf w'.d w'.bs).getD 0))) := rfl
  have hrn : (AW.refTo cfg w w' mo' mo foff).recnum = (recOf w.d w.bs).getD 0 := rfl
  rw [hfl, hrn]
  cases hw : recOf w.d w.bs with
  | none =>
    rw [hw] at hb
    rw [hb]
    simp only [Option.isSome_none, Bool.false_and, Bool.false_eq_true, if_false]
    exact sels_map none (by simp)
  | some n =>
    cases hw' : recOf w'.d w'.bs with
    | none => rw [hw, hw'] at hi; simp at hi
    | some n' =>
      have hc : ∀ b ∈ w'.bs, b.count.head? = some 1 := fun b hbm => ((recOf_some hw').2 b hbm).2
      rw [hw] at hb
      by_cases hn : n = n'
      · subst hn
        have := @recMap_self w'.d w'.bs
        rw [hw'] at this
        rw [this] at hb
        simp only [Option.isSome_some, Bool.and_self, Option.getD_some, decide_true, Bool.not_true,
          Bool.and_false, Bool.false_eq_true, if_false]
        rw [sels_map none (by simp)]
        rw [recMap_none, hb]
      · simp only [Option.isSome_some, Bool.true_and, Option.getD_some, hn, decide_false,
          Bool.not_false, if_true]
        rw [sels_map _ (fun b hbm _ => hc b hbm), ← hb]

end Verif
