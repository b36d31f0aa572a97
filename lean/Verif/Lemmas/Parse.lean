import Verif.Lemmas.Section

namespace Verif

open Spec (AW)

/-- The dataset can be opened by the reader. -/
def linked (dsets : DSets) (did : Nat) : Bool :=
  match dsets[did]? with
  | some (some _) => true
  | _ => false

/-- The reader's dataset table fits the writes of the log. -/
structure DsetsOK (dsets : DSets) (w : AW) : Prop where
  lt : w.did < dsets.length
  same : ∀ d', dsets[w.did]? = some (some d') → DSame d' w.d

theorem dsetOf_nat (dsets : DSets) (did : Nat) (h : did < dsets.length) :
    dsetOf dsets (did : Int) = .ok dsets[did] := by
  unfold dsetOf
  rw [if_neg (by omega)]
  simp [h]

/-- Well-formed write: lossless entry. -/
def AWF (cfg : Cfg) (w : AW) : Prop := SelWF cfg w.d w.bs

/-- What the list index must hold for a write. -/
def EntOK (x : AW × WReq) (e : MEnt) : Prop :=
  e.hdr = x.2.hdr ∧ e.sels = Spec.sels x.1.d.esize x.1.bs

/-- The header and the blocks of a write; offsets of blocks may be computed with another element size. -/
def EntB (x : AW × WReq) (e : MEnt) : Prop :=
  e.hdr = x.2.hdr ∧ ∃ z, e.sels = Spec.sels z x.1.bs

/-- What the compact index must hold for a write. -/
def CEntOK (x : AW × WReq) (c : CEnt) : Prop :=
  c.did = x.2.hdr.did ∧ c.foff = x.2.hdr.foff ∧ c.fsize = x.2.hdr.fsize ∧
  c.recd = (match recOf x.1.d x.1.bs with | some n => signed 8 n | none => -1) ∧
  c.blocks = some (x.1.bs.length, x.1.bs.flatMap
    (fun b => b.start.drop (recDims x.1.d x.1.bs) ++ b.count.drop (recDims x.1.d x.1.bs)))

/-- Two writes that share an entry agree on block offsets. -/
def SameDoff (w w' : AW) : Prop := w'.d.esize = w.d.esize ∨ w.bs.length = 1

theorem msize_lt_of_split {p1 p2 : List (AW × WReq)} {x : AW × WReq} :
    msize p1 < msize (p1 ++ x :: p2) := by
  have := x.2.metaSize_pos
  simp only [msize_append, msize_cons]; omega

/-- The cache knows every full entry of the current section. -/
def CacheL (cfg : Cfg) (dsets : DSets) (base : Nat) (prev : List (AW × WReq)) (cache : List (Int × List MSel)) : Prop :=
  cfg.share = true → ∀ p1 w k p2, prev = p1 ++ (w, k) :: p2 → k = AW.plain cfg w (msize p1) k.foff →
    linked dsets w.did = true → cacheGet cache ((base + msize p1 : Nat) : Int) = some (Spec.sels w.d.esize w.bs)

theorem cacheGet_cons_self {α : Type} (k : Int) (v : α) (c : List (Int × α)) :
    cacheGet ((k, v) :: c) k = some v := by simp [cacheGet]

theorem cacheGet_cons_ne {α : Type} {k k' : Int} (v : α) (c : List (Int × α)) (h : k ≠ k') :
    cacheGet ((k, v) :: c) k' = cacheGet c k' := by
  simp [cacheGet, h]

theorem plain_flags_ref (cfg : Cfg) (w : AW) (mo : Nat) (foff : Int) :
    (AW.plain cfg w mo foff).flags.ref = false := rfl

/-- Splitting a list extended by one element. -/
theorem split_snoc {α : Type} {prev p1 p2 : List α} {x y : α} (h : prev ++ [x] = p1 ++ y :: p2) :
    (p2 = [] ∧ p1 = prev ∧ y = x) ∨ ∃ p2', p2 = p2' ++ [x] ∧ prev = p1 ++ y :: p2' := by
  rcases List.eq_nil_or_concat p2 with h2 | ⟨q, z, h2⟩
  · subst h2
    left
    have := List.append_inj' (t₁ := [x]) (t₂ := [y]) h rfl
    exact ⟨rfl, this.1.symm, (by simpa using this.2.symm)⟩
  · right
    rw [List.concat_eq_append] at h2
    subst h2
    have h3 : prev ++ [x] = (p1 ++ y :: q) ++ [z] := by rw [h]; simp
    have := List.append_inj' (t₁ := [x]) (t₂ := [z]) h3 rfl
    refine ⟨q, ?_, this.1⟩
    have h4 : x = z := by simpa using this.2
    rw [h4]

/-- Bytes of a reference. -/
theorem refTo_bytes (cfg : Cfg) (w w' : AW) (mo' mo : Nat) (foff : Int) :
    (AW.refTo cfg w w' mo' mo foff).bytes =
      (AW.refTo cfg w w' mo' mo foff).hdr.bytes ++
      ((if (AW.refTo cfg w w' mo' mo foff).flags.recd then
          leN 8 (AW.refTo cfg w w' mo' mo foff).recnum else []) ++ sleN 8 ((mo' : Int) - mo)) := by
  simp only [WReq.bytes, List.append_assoc]
  rfl

theorem rdRef_refTo {cfg : Cfg} {w w' : AW} {mo' mo : Nat} {foff : Int} (h : SelWF cfg w.d w.bs)
    (hmo : mo < 2 ^ 63) (hle : mo' ≤ mo) (pre post : List Byte) :
    rdRef (pre ++ (AW.refTo cfg w w' mo' mo foff).bytes ++ post) pre.length
        (AW.refTo cfg w w' mo' mo foff).hdr
      = .ok ((if (AW.refTo cfg w w' mo' mo foff).flags.recd then
          some (AW.refTo cfg w w' mo' mo foff).recnum else none), (mo' : Int) - mo) := by
  have hrn : (AW.refTo cfg w w' mo' mo foff).recnum < 256 ^ 8 := by
    show (recOf w.d w.bs).getD 0 < _
    cases hr : recOf w.d w.bs with
    | none => simp
    | some n => have := recOf_lt h.sel hr; simp; omega
  have hsl : unsle (sleN 8 ((mo' : Int) - mo)) = (mo' : Int) - mo := by
    apply unsle_sleN <;> omega
  rw [refTo_bytes]
  unfold rdRef rdU64 rdI64
  have hfl : (AW.refTo cfg w w' mo' mo foff).hdr.flags.recd = (AW.refTo cfg w w' mo' mo foff).flags.recd := rfl
  rw [hfl]
  have hhl : (AW.refTo cfg w w' mo' mo foff).hdr.bytes.length = 28 := by simp
  generalize (AW.refTo cfg w w' mo' mo foff).recnum = rn at *
  generalize (AW.refTo cfg w w' mo' mo foff).hdr.bytes = hb at *
  cases (AW.refTo cfg w w' mo' mo foff).flags.recd with
  | false =>
    simp only [Bool.false_eq_true, if_false, Res.pure_eq, Res.ok_bind, List.nil_append, Nat.add_zero]
    rw [show pre ++ (hb ++ sleN 8 ((mo' : Int) - mo)) ++ post
      = (pre ++ hb) ++ sleN 8 ((mo' : Int) - mo) ++ post by simp]
    rw [rd_append (by simp [hdrSize, hhl]) (by simp)]
    simp [hsl]
  | true =>
    simp only [if_true, Res.pure_eq]
    rw [show pre ++ (hb ++ (leN 8 rn ++ sleN 8 ((mo' : Int) - mo))) ++ post
      = (pre ++ hb) ++ leN 8 rn ++ (sleN 8 ((mo' : Int) - mo) ++ post) by simp]
    rw [rd_append (by simp [hdrSize, hhl]) (by simp)]
    simp only [Res.ok_bind, unle_leN_of_lt hrn]
    rw [show (pre ++ hb) ++ leN 8 rn ++ (sleN 8 ((mo' : Int) - mo) ++ post)
      = (pre ++ hb ++ leN 8 rn) ++ sleN 8 ((mo' : Int) - mo) ++ post by simp]
    rw [rd_append (by simp [hdrSize, hhl]) (by simp)]
    simp [hsl]

theorem sels_single {e e' : Nat} {bs : List Blk} (h : bs.length = 1) :
    Spec.sels e bs = Spec.sels e' bs := by
  match bs, h with
  | [b], _ => simp [Spec.sels, Spec.dataOffset]

theorem linked_iff {dsets : DSets} {did : Nat} :
    linked dsets did = true ↔ ∃ d, dsets[did]? = some (some d) := by
  unfold linked
  split
  · rename_i d h; simp [h]
  · rename_i h; simp; exact fun d hd => h d hd

theorem not_linked {dsets : DSets} {did : Nat} (h : did < dsets.length)
    (hl : linked dsets did = false) : dsets[did] = none := by
  unfold linked at hl
  cases hd : dsets[did] with
  | none => rfl
  | some d => simp [h, hd] at hl

/-- One step of the list index parser. -/
theorem stepB_sec {cfg : Cfg} {dsets : DSets} {prev : List (AW × WReq)} {w : AW} {r : WReq}
    {cache : List (Int × List MSel)} (pre post : List Byte)
    (he : SecElem cfg prev w r) (hw : AWF cfg w) (hwp : ∀ x ∈ prev, AWF cfg x.1)
    (hf : r.hdr.Fits) (hsz : msize prev < 2 ^ 63) (hds : DsetsOK dsets w)
    (hlw : cfg.share = true → linked dsets w.did = true → ∀ x, Orig cfg prev w x → linked dsets x.1.did = true)
    (hc : CacheL cfg dsets pre.length prev cache) :
    ∃ es cache', stepL dsets cfg.share (pre ++ mbytes prev ++ r.bytes ++ post)
        (pre.length + msize prev) r.hdr cache = .ok (es, cache') ∧
      (es = [] ∧ linked dsets w.did = false ∨
        ∃ e, es = [e] ∧ (EntB (w, r) e ∧ ((cfg.share = true → ∀ x, Orig cfg prev w x → SameDoff w x.1) →
          EntOK (w, r) e)) ∧ linked dsets w.did = true) ∧
      CacheL cfg dsets pre.length (prev ++ [(w, r)]) cache' := by
  have hoff : pre.length + msize prev = (pre ++ mbytes prev).length := by simp
  have hdid : r.hdr.did = (w.did : Int) := by
    rcases he with ⟨he, _⟩ | ⟨p1, w', k, p2, _, _, _, _, _, _, he⟩ <;> rw [he] <;> rfl
  unfold stepL
  rw [hdid, dsetOf_nat _ _ hds.lt]
  simp only [Res.ok_bind]
  cases hlk : linked dsets w.did with
  | false =>
    rw [not_linked hds.lt hlk]
    refine ⟨[], cache, rfl, Or.inl ⟨rfl, rfl⟩, ?_⟩
    intro hsh p1 w1 k1 p2 hsp hk1 hlk1
    rcases split_snoc hsp with ⟨h2, h1, h3⟩ | ⟨p2', h2, h1⟩
    · have : w1 = w := (Prod.mk.inj h3).1
      rw [this, hlk] at hlk1
      exact absurd hlk1 (by simp)
    · exact hc hsh p1 w1 k1 p2' h1 hk1 hlk1
  | true =>
    obtain ⟨d', hd'⟩ := linked_iff.mp hlk
    have hd2 : dsets[w.did]'hds.lt = some d' := by
      have := hd'
      rw [List.getElem?_eq_getElem hds.lt] at this
      simpa using this
    rw [hd2]
    have hsame := hds.same d' hd'
    rcases he with ⟨he, _⟩ | ⟨p1, w', k, p2, hp, hk, hsh, hsb, hrd, hfi, he⟩
    · -- full entry
      have href : r.hdr.flags.ref = false := by rw [he]; rfl
      simp only [href, Bool.and_false, Bool.false_eq_true, if_false]
      have hdec := metaDecode_plainReq (cfg := cfg) (d := w.d) (did := w.did) (bs := w.bs)
        (mo := msize prev) (foff := r.foff) (data := w.data) hw.sel hw.enc
        (by have : (AW.plain cfg w (msize prev) r.foff).hdr.Fits := he ▸ hf
            exact this) (pre ++ mbytes prev) post hoff
      have hr2 : plainReq cfg w.d w.did w.bs (msize prev) r.foff w.data = r := he.symm
      rw [hr2] at hdec
      rw [metaDecode_congr hsame, hdec]
      simp only [Res.ok_bind, Res.pure_eq]
      refine ⟨_, _, rfl, Or.inr ⟨_, rfl, ⟨⟨rfl, _, rfl⟩, fun _ => ⟨rfl, rfl⟩⟩, trivial⟩, ?_⟩
      intro hsh p1 w1 k1 p2 hsp hk1 hlk1
      rcases split_snoc hsp with ⟨h2, h1, h3⟩ | ⟨p2', h2, h1⟩
      · subst h1
        have : w1 = w := (Prod.mk.inj h3).1
        subst this
        exact cacheGet_cons_self _ _ _
      · rw [cacheGet_cons_ne]
        · exact hc hsh p1 w1 k1 p2' h1 hk1 hlk1
        · have := @msize_lt_of_split p1 p2' (w1, k1)
          rw [← h1] at this
          omega
    · -- reference
      have href : r.hdr.flags.ref = true := by rw [he]; rfl
      simp only [href, hsh, Bool.and_true, if_true]
      have hle : msize p1 ≤ msize prev := by
        have := @msize_lt_of_split p1 p2 (w', k)
        rw [← hp] at this; omega
      have hmem : (w', k) ∈ prev := by rw [hp]; simp
      have hlook := hc hsh p1 w' k p2 hp hk (hlw hsh hlk _ ⟨p1, p2, hp, hfi, hsb, hrd⟩)
      have hrr := rdRef_refTo (cfg := cfg) (w := w) (w' := w') (mo' := msize p1) (mo := msize prev)
        (foff := r.foff) hw hsz hle (pre ++ mbytes prev) post
      rw [← he, ← hoff] at hrr
      have hh := rdHdr_req hf (pre ++ mbytes prev) post
      rw [← hoff] at hh
      have hsels := share_sels (cfg := cfg) (w := w) (w' := w') w'.d.esize hw (hwp _ hmem) hrd hsb
        (msize p1) (msize prev) r.foff
      rw [← he] at hsels
      have hfin : (cfg.share = true → ∀ x, Orig cfg prev w x → SameDoff w x.1) →
          Spec.sels w'.d.esize w.bs = Spec.sels w.d.esize w.bs := by
        intro hsd
        rcases hsd hsh _ ⟨p1, p2, hp, hfi, hsb, hrd⟩ with h1 | h1
        · rw [h1]
        · exact sels_single h1
      unfold refDecode
      rw [hh]
      simp only [Res.ok_bind]
      have hpos : ¬ r.hdr.metaSize ≤ 0 := by
        have := r.metaSize_pos
        show ¬ ((r.metaSize : Int) ≤ 0)
        omega
      rw [if_neg hpos, hrr]
      simp only [Res.ok_bind]
      have hkey : ((pre.length + msize prev : Nat) : Int) + ((msize p1 : Int) - (msize prev : Nat))
          = ((pre.length + msize p1 : Nat) : Int) := by omega
      rw [hkey, hlook]
      simp only [Option.getD_some]
      rw [hsels]
      have hds2 : ∃ n, decDsize d' d'.ndim (Spec.sels w'.d.esize w.bs) = .ok n := by
        unfold decDsize
        cases hl : (Spec.sels w'.d.esize w.bs).getLast? with
        | some s => exact ⟨_, rfl⟩
        | none =>
          rw [List.getLast?_eq_none_iff] at hl
          have := congrArg List.length hl
          simp [Spec.sels] at this
          exact absurd this hw.sel.ne
      obtain ⟨n, hn⟩ := hds2
      rw [hn]
      simp only [Res.ok_bind, Res.pure_eq]
      refine ⟨_, _, rfl, Or.inr ⟨_, rfl, ⟨⟨rfl, _, rfl⟩, fun hsd => ⟨rfl, hfin (fun _ => hsd trivial)⟩⟩, trivial⟩, ?_⟩
      intro hsh p1' w1 k1 p2' hsp hk1
      rcases split_snoc hsp with ⟨h2, h1, h3⟩ | ⟨q, h2, h1⟩
      · subst h1
        have e1 : w1 = w := (Prod.mk.inj h3).1
        have e2 : k1 = r := (Prod.mk.inj h3).2
        subst e1; subst e2
        exfalso
        have : k1.flags.ref = false := by rw [hk1]; rfl
        have h5 : k1.flags.ref = true := href
        rw [this] at h5
        exact absurd h5 (by simp)
      · exact hc hsh p1' w1 k1 q h1 hk1

/-- One step of the list index parser. -/
theorem stepL_sec {cfg : Cfg} {dsets : DSets} {prev : List (AW × WReq)} {w : AW} {r : WReq}
    {cache : List (Int × List MSel)} (pre post : List Byte)
    (he : SecElem cfg prev w r) (hw : AWF cfg w) (hwp : ∀ x ∈ prev, AWF cfg x.1)
    (hsd : cfg.share = true → ∀ x, Orig cfg prev w x → SameDoff w x.1)
    (hf : r.hdr.Fits) (hsz : msize prev < 2 ^ 63) (hds : DsetsOK dsets w)
    (hlw : cfg.share = true → linked dsets w.did = true → ∀ x, Orig cfg prev w x → linked dsets x.1.did = true)
    (hc : CacheL cfg dsets pre.length prev cache) :
    ∃ es cache', stepL dsets cfg.share (pre ++ mbytes prev ++ r.bytes ++ post)
        (pre.length + msize prev) r.hdr cache = .ok (es, cache') ∧
      (es = [] ∧ linked dsets w.did = false ∨
        ∃ e, es = [e] ∧ EntOK (w, r) e ∧ linked dsets w.did = true) ∧
      CacheL cfg dsets pre.length (prev ++ [(w, r)]) cache' := by
  obtain ⟨es, cache', h1, h2, h3⟩ := stepB_sec (cfg := cfg) (dsets := dsets) (prev := prev) (w := w) (r := r)
    (cache := cache) pre post he hw hwp hf hsz hds hlw hc
  refine ⟨es, cache', h1, ?_, h3⟩
  rcases h2 with h2 | ⟨e, e1, e2, e3⟩
  · exact Or.inl h2
  · exact Or.inr ⟨e, e1, e2.2 hsd, e3⟩

/-- Flat block array of a write in the compact index. -/
def cflat (w : AW) : List Nat :=
  w.bs.flatMap (fun b => b.start.drop (recDims w.d w.bs) ++ b.count.drop (recDims w.d w.bs))

def CacheC (cfg : Cfg) (dsets : DSets) (base : Nat) (prev : List (AW × WReq))
    (cache : List (Int × (Nat × List Nat))) : Prop :=
  cfg.share = true → ∀ p1 w k p2, prev = p1 ++ (w, k) :: p2 → k = AW.plain cfg w (msize p1) k.foff →
    linked dsets w.did = true → cacheGet cache ((base + msize p1 : Nat) : Int) = some (w.bs.length, cflat w)

theorem sels_flatMap (e : Nat) (bs : List Blk) (f : List Nat → List Nat → List Nat) :
    (Spec.sels e bs).flatMap (fun s => f s.start s.count) = bs.flatMap (fun b => f b.start b.count) := by
  have : (Spec.sels e bs).map (fun s => (s.start, s.count)) = bs.map (fun b => (b.start, b.count)) := by
    unfold Spec.sels
    apply List.ext_getElem <;> simp
  have h2 := congrArg (List.flatMap (fun p : List Nat × List Nat => f p.1 p.2)) this
  simpa [List.flatMap_map] using h2

theorem cflat_share {cfg : Cfg} {w w' : AW} (h : SelWF cfg w.d w.bs)
    (h' : SelWF cfg w'.d w'.bs) (hr : recDims w'.d w'.bs = recDims w.d w.bs)
    (hs : selBytes cfg w'.d w'.bs = selBytes cfg w.d w.bs) :
    (w'.bs.length, cflat w') = (w.bs.length, cflat w) := by
  obtain ⟨_, hl, h1, h2⟩ := selBytes_inj h' h hr hs
  unfold cflat
  rw [hr] at *
  have : w'.bs.map (fun b => (b.start.drop (recDims w.d w.bs), b.count.drop (recDims w.d w.bs)))
      = w.bs.map (fun b => (b.start.drop (recDims w.d w.bs), b.count.drop (recDims w.d w.bs))) := by
    apply List.ext_getElem (by simpa using hl)
    intro i hi hi'
    simp only [List.getElem_map, Prod.mk.injEq]
    have e1 := List.getElem_of_eq h1 (by simpa using hi)
    have e2 := List.getElem_of_eq h2 (by simpa using hi)
    simp only [List.getElem_map] at e1 e2
    exact ⟨e1, e2⟩
  rw [hl]
  have h3 := congrArg (List.flatMap (fun p : List Nat × List Nat => p.1 ++ p.2)) this
  simp only [List.flatMap_map] at h3
  rw [h3]

theorem mkCEnt_plain {cfg : Cfg} {w : AW} (h : SelWF cfg w.d w.bs) (mo : Nat) (foff : Int) (ds : Nat) :
    ∃ c, mkCEnt { hdr := (AW.plain cfg w mo foff).hdr, sels := Spec.sels w.d.esize w.bs, dsize := ds }
        = .ok c ∧ CEntOK (w, AW.plain cfg w mo foff) c := by
  have hfl : (AW.plain cfg w mo foff).hdr.flags.recd = (recOf w.d w.bs).isSome := rfl
  have hlen : (Spec.sels w.d.esize w.bs).length = w.bs.length := by simp [Spec.sels]
  unfold mkCEnt
  simp only [hfl, hlen]
  rw [sels_flatMap _ _ (fun s c => s.drop (if (recOf w.d w.bs).isSome = true then 1 else 0)
    ++ c.drop (if (recOf w.d w.bs).isSome = true then 1 else 0))]
  cases hr : recOf w.d w.bs with
  | none =>
    simp only [Option.isSome_none, Bool.false_eq_true, if_false, Res.ok_bind, Res.pure_eq]
    refine ⟨_, rfl, rfl, rfl, rfl, ?_, ?_⟩
    · simp [hr]
    · simp [recDims, hr]
  | some n =>
    simp only [Option.isSome_some, if_true]
    have hne := h.sel.ne
    cases hb : w.bs with
    | nil => exact absurd hb hne
    | cons b bs =>
      have hst := ((recOf_some hr).2 b (by rw [hb]; simp)).1
      obtain ⟨t, ht⟩ : ∃ t, b.start = n :: t := by
        cases hbs : b.start with
        | nil => rw [hbs] at hst; simp at hst
        | cons a t => rw [hbs] at hst; simp at hst; exact ⟨t, by rw [hst]⟩
      have hsels : ∃ rest, Spec.sels w.d.esize (b :: bs)
          = { start := n :: t, count := b.count, doff := 0 } :: rest := by
        unfold Spec.sels
        rw [List.mapIdx_cons]
        refine ⟨bs.mapIdx (fun i x =>
          MSel.mk x.start x.count (Spec.dataOffset w.d.esize (b :: bs) (i + 1))), ?_⟩
        simp [ht, Spec.dataOffset]
      obtain ⟨rest, hrest⟩ := hsels
      rw [hrest]
      simp only [Res.ok_bind, Res.pure_eq]
      refine ⟨_, rfl, rfl, rfl, rfl, ?_, ?_⟩
      · simp [hr]
      · simp only [recDims, hr, ← hb, Option.isSome_some, if_true]

/-- One step of the compact index parser; references to an entry of the same record are excluded. -/
theorem stepC_sec {cfg : Cfg} {dsets : DSets} {prev : List (AW × WReq)} {w : AW} {r : WReq}
    {cache : List (Int × (Nat × List Nat))} (pre post : List Byte)
    (he : SecElem cfg prev w r) (hw : AWF cfg w) (hwp : ∀ x ∈ prev, AWF cfg x.1)
    (hnf : cfg.share = true → ∀ x, Orig cfg prev w x →
      ∀ n, recOf w.d w.bs = some n → recOf x.1.d x.1.bs ≠ some n)
    (hf : r.hdr.Fits) (hsz : msize prev < 2 ^ 63) (hds : DsetsOK dsets w)
    (hlw : cfg.share = true → linked dsets w.did = true → ∀ x, Orig cfg prev w x → linked dsets x.1.did = true)
    (hc : CacheC cfg dsets pre.length prev cache) :
    ∃ es cache', stepC dsets cfg.share (pre ++ mbytes prev ++ r.bytes ++ post)
        (pre.length + msize prev) r.hdr cache = .ok (es, cache') ∧
      (es = [] ∧ linked dsets w.did = false ∨
        ∃ e, es = [e] ∧ CEntOK (w, r) e ∧ linked dsets w.did = true) ∧
      CacheC cfg dsets pre.length (prev ++ [(w, r)]) cache' := by
  have hoff : pre.length + msize prev = (pre ++ mbytes prev).length := by simp
  have hdid : r.hdr.did = (w.did : Int) := by
    rcases he with ⟨he, _⟩ | ⟨p1, w', k, p2, _, _, _, _, _, _, he⟩ <;> rw [he] <;> rfl
  unfold stepC
  rw [hdid, dsetOf_nat _ _ hds.lt]
  simp only [Res.ok_bind]
  cases hlk : linked dsets w.did with
  | false =>
    rw [not_linked hds.lt hlk]
    refine ⟨[], cache, rfl, Or.inl ⟨rfl, rfl⟩, ?_⟩
    intro hsh p1 w1 k1 p2 hsp hk1 hlk1
    rcases split_snoc hsp with ⟨h2, h1, h3⟩ | ⟨p2', h2, h1⟩
    · have : w1 = w := (Prod.mk.inj h3).1
      rw [this, hlk] at hlk1
      exact absurd hlk1 (by simp)
    · exact hc hsh p1 w1 k1 p2' h1 hk1 hlk1
  | true =>
    obtain ⟨d', hd'⟩ := linked_iff.mp hlk
    have hd2 : dsets[w.did]'hds.lt = some d' := by
      have := hd'
      rw [List.getElem?_eq_getElem hds.lt] at this
      simpa using this
    rw [hd2]
    have hsame := hds.same d' hd'
    rcases he with ⟨he, _⟩ | ⟨p1, w', k, p2, hp, hk, hsh, hsb, hrd, hfi, he⟩
    · -- full entry
      have href : r.hdr.flags.ref = false := by rw [he]; rfl
      simp only [href, Bool.and_false, Bool.false_eq_true, if_false]
      have hdec := metaDecode_plainReq (cfg := cfg) (d := w.d) (did := w.did) (bs := w.bs)
        (mo := msize prev) (foff := r.foff) (data := w.data) hw.sel hw.enc
        (by have : (AW.plain cfg w (msize prev) r.foff).hdr.Fits := he ▸ hf
            exact this) (pre ++ mbytes prev) post hoff
      have hr2 : plainReq cfg w.d w.did w.bs (msize prev) r.foff w.data = r := he.symm
      have hmk := mkCEnt_plain (cfg := cfg) (w := w) hw (msize prev) r.foff (specDsize w.d w.bs)
      have hr3 : AW.plain cfg w (msize prev) r.foff = r := he.symm
      rw [hr2] at hdec
      rw [hr3] at hmk
      obtain ⟨c, hc1, hc2⟩ := hmk
      rw [metaDecode_congr hsame, hdec]
      simp only [Res.ok_bind]
      rw [hc1]
      simp only [Res.ok_bind, Res.pure_eq]
      have hblk : c.blocks = some (w.bs.length, cflat w) := hc2.2.2.2.2
      rw [hblk]
      refine ⟨_, _, rfl, Or.inr ⟨_, rfl, hc2, trivial⟩, ?_⟩
      intro hsh p1 w1 k1 p2 hsp hk1 hlk1
      rcases split_snoc hsp with ⟨h2, h1, h3⟩ | ⟨p2', h2, h1⟩
      · subst h1
        have : w1 = w := (Prod.mk.inj h3).1
        subst this
        exact cacheGet_cons_self _ _ _
      · rw [cacheGet_cons_ne]
        · exact hc hsh p1 w1 k1 p2' h1 hk1 hlk1
        · have := @msize_lt_of_split p1 p2' (w1, k1)
          rw [← h1] at this
          omega
    · -- reference
      have href : r.hdr.flags.ref = true := by rw [he]; rfl
      simp only [href, hsh, Bool.and_true, if_true]
      have hle : msize p1 ≤ msize prev := by
        have := @msize_lt_of_split p1 p2 (w', k)
        rw [← hp] at this; omega
      have hmem : (w', k) ∈ prev := by rw [hp]; simp
      have hlook := hc hsh p1 w' k p2 hp hk (hlw hsh hlk _ ⟨p1, p2, hp, hfi, hsb, hrd⟩)
      have hrr := rdRef_refTo (cfg := cfg) (w := w) (w' := w') (mo' := msize p1) (mo := msize prev)
        (foff := r.foff) hw hsz hle (pre ++ mbytes prev) post
      rw [← he, ← hoff] at hrr
      rw [hrr]
      simp only [Res.ok_bind, Res.pure_eq]
      have hkey : ((pre.length + msize prev : Nat) : Int) + ((msize p1 : Int) - (msize prev : Nat))
          = ((pre.length + msize p1 : Nat) : Int) := by omega
      rw [hkey, hlook, cflat_share hw (hwp _ hmem) hrd hsb]
      refine ⟨_, _, rfl, Or.inr ⟨_, rfl, ⟨hdid.symm, rfl, rfl, ?_, rfl⟩, trivial⟩, ?_⟩
      · have hfl : r.flags.recd =
            ((recOf w.d w.bs).isSome && !((recOf w.d w.bs).isSome && (recOf w'.d w'.bs).isSome
              && decide ((recOf w.d w.bs).getD 0 = (recOf w'.d w'.bs).getD 0))) := by
          rw [he]; rfl
        have hrn : r.recnum = (recOf w.d w.bs).getD 0 := by rw [he]; rfl
        rw [hfl, hrn]
        cases hrw : recOf w.d w.bs with
        | none => simp
        | some n =>
          have hne := hnf hsh _ ⟨p1, p2, hp, hfi, hsb, hrd⟩ n hrw
          have hi := recOf_isSome_of hrd
          cases hrw' : recOf w'.d w'.bs with
          | none => rw [hrw, hrw'] at hi; simp at hi
          | some n' =>
            have : n ≠ n' := fun hh => hne (by rw [hrw', hh])
            simp [this]
      · intro hsh p1' w1 k1 p2' hsp hk1
        rcases split_snoc hsp with ⟨h2, h1, h3⟩ | ⟨q, h2, h1⟩
        · subst h1
          have e1 : w1 = w := (Prod.mk.inj h3).1
          have e2 : k1 = r := (Prod.mk.inj h3).2
          subst e1; subst e2
          exfalso
          have : k1.flags.ref = false := by rw [hk1]; rfl
          have h5 : k1.flags.ref = true := href
          rw [this] at h5
          exact absurd h5 (by simp)
        · exact hc hsh p1' w1 k1 q h1 hk1

end Verif
