import Verif.Lemmas.SameEntry

namespace Verif

open Spec (AW AFile Confined Recordable SameSel SameEntry Known)

/-! ### Positions of a section -/

/-- The elements of a list with what comes before them. -/
def posns {α : Type} : List α → List α → List (List α × α)
  | _, [] => []
  | prev, y :: ys => (prev, y) :: posns (prev ++ [y]) ys

theorem mem_posns {α : Type} {ys : List α} : ∀ {prev : List α} {p : List α × α}, p ∈ posns prev ys ↔
    ∃ mid post, ys = mid ++ p.2 :: post ∧ p.1 = prev ++ mid := by
  induction ys with
  | nil => intro prev p; simp [posns]
  | cons y ys ih =>
    intro prev p
    simp only [posns, List.mem_cons]
    constructor
    · rintro (rfl | h)
      · exact ⟨[], ys, rfl, by simp⟩
      · obtain ⟨mid, post, e1, e2⟩ := ih.mp h
        exact ⟨y :: mid, post, by rw [e1]; rfl, by rw [e2]; simp⟩
    · rintro ⟨mid, post, e1, e2⟩
      cases mid with
      | nil =>
        simp only [List.nil_append, List.cons.injEq] at e1
        left
        rw [e1.1]
        exact Prod.ext (by simpa using e2) rfl
      | cons z mid =>
        simp only [List.cons_append, List.cons.injEq] at e1
        right
        exact ih.mpr ⟨mid, post, e1.2, by rw [e2, e1.1]; simp⟩

theorem posns_map {α : Type} {ys : List α} : ∀ {prev : List α}, (posns prev ys).map (·.2) = ys := by
  induction ys with
  | nil => intro prev; rfl
  | cons y ys ih => intro prev; simp [posns, ih]

/-- The elements of the sections of a log with what comes before them in their section. -/
def posL {α : Type} (secs : List (List α)) : List (List α × α) := secs.flatMap (posns [])

theorem mem_posL {α : Type} {secs : List (List α)} {p : List α × α} :
    p ∈ posL secs ↔ ∃ s ∈ secs, ∃ post, s = p.1 ++ p.2 :: post := by
  unfold posL
  rw [List.mem_flatMap]
  constructor
  · rintro ⟨s, hs, hp⟩
    obtain ⟨mid, post, e1, e2⟩ := mem_posns.mp hp
    exact ⟨s, hs, post, by rw [e1, e2]; simp⟩
  · rintro ⟨s, hs, post, e⟩
    exact ⟨s, hs, mem_posns.mpr ⟨p.1, post, e, by simp⟩⟩

theorem posL_map {α : Type} {secs : List (List α)} : (posL secs).map (·.2) = secs.flatten := by
  induction secs with
  | nil => rfl
  | cons s secs ih =>
    have : posL (s :: secs) = posns [] s ++ posL secs := rfl
    rw [this, List.map_append, ih, posns_map]; rfl

theorem posL_append {α : Type} (a b : List (List α)) : posL (a ++ b) = posL a ++ posL b := by
  unfold posL; rw [List.flatMap_append]

variable {ε κ : Type}

/-- Parsing one section whose entries are handled according to what comes before them. -/
theorem parseLoop_pos (step : Nat → Hdr → List (Int × κ) → Res (List ε × List (Int × κ)))
    (B : List (AW × WReq) × (AW × WReq) → Prop) (R : List (AW × WReq) × (AW × WReq) → List ε → Prop)
    (C : List (AW × WReq) → List (Int × κ) → Prop)
    (buf pre post : List Byte) (xs : List (AW × WReq)) (hbuf : buf = pre ++ mbytes xs ++ post)
    (hfit : ∀ x ∈ xs, x.2.hdr.Fits)
    (hstep : ∀ prev x rest cache, xs = prev ++ x :: rest → C prev cache →
      (B (prev, x) → step (pre.length + msize prev) x.2.hdr cache = .ub) ∧
      (¬ B (prev, x) → ∃ es cache', step (pre.length + msize prev) x.2.hdr cache = .ok (es, cache') ∧ R (prev, x) es ∧
        C (prev ++ [x]) cache')) :
    ∀ ys prev cache fuel, xs = prev ++ ys → C prev cache → ys.length ≤ fuel →
      ((∃ p ∈ posns prev ys, B p) → parseLoop step buf fuel (pre.length + msize prev) cache = .ub) ∧
      ((∀ p ∈ posns prev ys, ¬ B p) → ∃ ess cache', List.Forall₂ R (posns prev ys) ess ∧ C xs cache' ∧
        parseLoop step buf fuel (pre.length + msize prev) cache =
          (do let es ← parseLoop step buf (fuel - ys.length) (pre.length + msize xs) cache'
              return ess.flatten ++ es)) := by
  intro ys
  induction ys with
  | nil =>
    intro prev cache fuel hx hc _
    simp only [List.append_nil] at hx
    subst hx
    refine ⟨fun h => ?_, fun _ => ⟨[], cache, List.Forall₂.nil, hc, ?_⟩⟩
    · obtain ⟨p, hp, _⟩ := h; simp [posns] at hp
    · simp only [List.length_nil, Nat.sub_zero, List.flatten_nil, List.nil_append]
      cases parseLoop step buf fuel (pre.length + msize xs) cache <;> rfl
  | cons y ys ih =>
    intro prev cache fuel hx hc hfuel
    obtain ⟨fuel, rfl⟩ : ∃ f, fuel = f + 1 := ⟨fuel - 1, by simp at hfuel; omega⟩
    have hx' : xs = (prev ++ [y]) ++ ys := by rw [hx]; simp
    have hb2 : buf = (pre ++ mbytes prev) ++ y.2.bytes ++ (mbytes ys ++ post) := by
      rw [hbuf, hx]; simp
    have hh : rdHdr buf (pre.length + msize prev) = .ok y.2.hdr := by
      rw [hb2]
      have := rdHdr_req (hfit y (by rw [hx]; simp)) (pre ++ mbytes prev) (mbytes ys ++ post)
      rw [List.length_append, mbytes_length] at this
      exact this
    have hlt : pre.length + msize prev < buf.length := by
      have := y.2.metaSize_pos
      rw [hb2]
      simp only [List.length_append, mbytes_length, WReq.bytes_length]
      omega
    have ho : pre.length + msize prev + y.2.metaSize = pre.length + msize (prev ++ [y]) := by
      simp; omega
    obtain ⟨st1, st2⟩ := hstep prev y ys cache hx hc
    by_cases hB : B (prev, y)
    · have hub : parseLoop step buf (fuel + 1) (pre.length + msize prev) cache = .ub := by
        rw [parseLoop, if_pos hlt, hh]
        simp only [Res.ok_bind]
        rw [st1 hB]
        rfl
      exact ⟨fun _ => hub, fun h => absurd hB (h _ (by simp [posns]))⟩
    · obtain ⟨es, cache', hs, hR, hC⟩ := st2 hB
      obtain ⟨ih1, ih2⟩ := ih (prev ++ [y]) cache' fuel hx' hC (by simp at hfuel; omega)
      have hone : parseLoop step buf (fuel + 1) (pre.length + msize prev) cache =
          (do let es' ← parseLoop step buf fuel (pre.length + msize (prev ++ [y])) cache'
              return es ++ es') := by
        rw [parseLoop, if_pos hlt, hh]
        simp only [Res.ok_bind]
        rw [hs]
        simp only [Res.ok_bind]
        rw [advance_req]
        simp only [Res.ok_bind]
        rw [ho]
      constructor
      · rintro ⟨p, hp, hBp⟩
        simp only [posns, List.mem_cons] at hp
        rcases hp with rfl | hp
        · exact absurd hBp hB
        · rw [hone, ih1 ⟨p, hp, hBp⟩]; rfl
      · intro h
        obtain ⟨ess, c2, hF, hCx, hloop⟩ := ih2 (fun p hp => h p (by simp [posns, hp]))
        refine ⟨es :: ess, c2, List.Forall₂.cons hR hF, hCx, ?_⟩
        rw [hone, hloop]
        simp only [List.length_cons, Nat.add_sub_add_right]
        cases parseLoop step buf (fuel - ys.length) (pre.length + msize xs) c2 <;>
          simp [List.append_assoc]

/-- Parsing a sequence of sections. -/
theorem parseLoop_poss (step : Nat → Hdr → List (Int × κ) → Res (List ε × List (Int × κ)))
    (B : List (AW × WReq) × (AW × WReq) → Prop) (R : List (AW × WReq) × (AW × WReq) → List ε → Prop)
    (C : Nat → List (AW × WReq) → List (Int × κ) → Prop)
    (buf : List Byte) (hnext : ∀ base xs cache, C base xs cache → C (base + msize xs) [] cache) :
    ∀ (secs : List (List (AW × WReq))) (pre : List Byte) (cache : List (Int × κ)) (fuel : Nat),
      buf = pre ++ (secs.map mbytes).flatten → C pre.length [] cache →
      (∀ xs ∈ secs, ∀ x ∈ xs, x.2.hdr.Fits) →
      (∀ xs ∈ secs, ∀ pre post, buf = pre ++ mbytes xs ++ post →
        ∀ prev x rest cache, xs = prev ++ x :: rest → C pre.length prev cache →
        (B (prev, x) → step (pre.length + msize prev) x.2.hdr cache = .ub) ∧
        (¬ B (prev, x) → ∃ es cache', step (pre.length + msize prev) x.2.hdr cache = .ok (es, cache') ∧ R (prev, x) es ∧
          C pre.length (prev ++ [x]) cache')) →
      secs.flatten.length ≤ fuel →
      ((∃ p ∈ posL secs, B p) → parseLoop step buf fuel pre.length cache = .ub) ∧
      ((∀ p ∈ posL secs, ¬ B p) → ∃ ess, List.Forall₂ R (posL secs) ess ∧
        parseLoop step buf fuel pre.length cache = .ok ess.flatten) := by
  intro secs
  induction secs with
  | nil =>
    intro pre cache fuel hb _ _ _ _
    refine ⟨fun h => ?_, fun _ => ⟨[], List.Forall₂.nil, ?_⟩⟩
    · obtain ⟨p, hp, _⟩ := h; simp [posL] at hp
    · have : ¬ pre.length < buf.length := by rw [hb]; simp
      cases fuel <;> simp [parseLoop, this]
  | cons xs secs ih =>
    intro pre cache fuel hb hC hfit hstep hfuel
    have hb1 : buf = pre ++ mbytes xs ++ (secs.map mbytes).flatten := by rw [hb]; simp
    simp only [List.flatten_cons, List.length_append] at hfuel
    have hpos : posL (xs :: secs) = posns [] xs ++ posL secs := rfl
    obtain ⟨f1, f2⟩ := parseLoop_pos step B R (C pre.length) buf pre
      ((secs.map mbytes).flatten) xs hb1 (hfit xs (by simp))
      (hstep xs (by simp) pre _ hb1) xs [] cache fuel rfl hC (by omega)
    simp only [msize_nil, Nat.add_zero] at f1 f2
    by_cases h1 : ∃ p ∈ posns [] xs, B p
    · refine ⟨fun _ => f1 h1, fun h => ?_⟩
      obtain ⟨p, hp, hB⟩ := h1
      exact absurd hB (h p (by rw [hpos]; simp [hp]))
    · have h1' : ∀ p ∈ posns [] xs, ¬ B p := fun p hp hB => h1 ⟨p, hp, hB⟩
      obtain ⟨ess, c1, hF, hC1, hl⟩ := f2 h1'
      obtain ⟨g1, g2⟩ := ih (pre ++ mbytes xs) c1 (fuel - xs.length)
        (by rw [hb1]) (by rw [List.length_append, mbytes_length]; exact hnext _ _ _ hC1)
        (fun ys hy => hfit ys (by simp [hy]))
        (fun ys hy => hstep ys (by simp [hy])) (by omega)
      rw [List.length_append, mbytes_length] at g1 g2
      constructor
      · rintro ⟨p, hp, hB⟩
        rw [hpos, List.mem_append] at hp
        rcases hp with hp | hp
        · exact absurd hB (h1' p hp)
        · rw [hl, g1 ⟨p, hp, hB⟩]; rfl
      · intro h
        obtain ⟨ess2, hF2, hl2⟩ := g2 (fun p hp => h p (by rw [hpos]; simp [hp]))
        refine ⟨ess ++ ess2, ?_, ?_⟩
        · rw [hpos]; exact List.rel_append hF hF2
        · rw [hl, hl2]; simp

/-! ### Steps -/

/-- Conditions on a section, whatever datasets its entries refer to. -/
structure SecWF (cfg : Cfg) (dsets : DSets) (xs : List (AW × WReq)) : Prop where
  sec : IsSection cfg xs
  wf : ∀ x ∈ xs, AWF cfg x.1
  fit : ∀ x ∈ xs, x.2.hdr.Fits
  sz : msize xs < 2 ^ 63
  ds : ∀ x ∈ xs, DsetsOK dsets x.1

theorem secWF_of {cfg : Cfg} {dsets : DSets} {xs : List (AW × WReq)} (hs : IsSection cfg xs)
    (h : ∀ x ∈ xs, Recordable cfg x.1 x.2.foff) (hk : ∀ x ∈ xs, Known dsets x.1) (hl : xs.length < 2 ^ 31) :
    SecWF cfg dsets xs := by
  have hfit : ∀ x ∈ xs, x.2.hdr.Fits := by
    intro x hx
    obtain ⟨p, q, e⟩ := List.append_of_mem hx
    exact (h x hx).fits.hdr (hs p x q e)
  refine ⟨hs, fun x hx => (h x hx).awf, hfit, ?_, fun x hx => ⟨(hk x hx).lt, (hk x hx).same⟩⟩
  have := msize_le (xs := xs) (fun x hx => by
    have := (hfit x hx).m1
    have e : x.2.hdr.metaSize = (x.2.metaSize : Int) := rfl
    rw [e] at this
    omega)
  have : xs.length * 2 ^ 31 < 2 ^ 31 * 2 ^ 31 := Nat.mul_lt_mul_of_pos_right hl (by decide)
  omega

/-- The offsets at which a parser has remembered entries. -/
structure KeysX (dsets : DSets) (base : Nat) (prev : List (AW × WReq)) (cache : List (Int × κ)) : Prop where
  lt : ∀ p ∈ cache, p.1 < ((base + msize prev : Nat) : Int)
  none : ∀ p1 x p2, prev = p1 ++ x :: p2 → linked dsets x.1.did = false →
    cacheGet cache ((base + msize p1 : Nat) : Int) = none

theorem cacheGet_none {cache : List (Int × κ)} {k : Int} (h : ∀ p ∈ cache, p.1 ≠ k) : cacheGet cache k = none := by
  unfold cacheGet
  rw [Option.map_eq_none_iff, List.find?_eq_none]
  intro p hp
  simp [h p hp]

theorem KeysX.next {dsets : DSets} {base : Nat} {xs : List (AW × WReq)} {cache : List (Int × κ)}
    (h : KeysX dsets base xs cache) : KeysX dsets (base + msize xs) [] cache :=
  ⟨by simpa using h.lt, by intro p1 x p2 e; simp at e⟩

theorem KeysX.step {dsets : DSets} {base : Nat} {prev : List (AW × WReq)} {x : AW × WReq} {cache cache' : List (Int × κ)}
    (h : KeysX dsets base prev cache)
    (hc : cache' = cache ∨ ((∃ v, cache' = (((base + msize prev : Nat) : Int), v) :: cache) ∧ linked dsets x.1.did = true)) :
    KeysX dsets base (prev ++ [x]) cache' := by
  have hpos := x.2.metaSize_pos
  have hm : msize (prev ++ [x]) = msize prev + x.2.metaSize := by simp
  constructor
  · intro p hp
    rw [hm]
    rcases hc with rfl | ⟨⟨v, rfl⟩, _⟩
    · have := h.lt p hp; omega
    · rcases List.mem_cons.mp hp with rfl | hp
      · simp only; omega
      · have := h.lt p hp; omega
  · intro p1 y p2 e hl
    rcases split_snoc e with ⟨_, h1, h3⟩ | ⟨p2', _, h1⟩
    · subst h1; subst h3
      rcases hc with rfl | ⟨_, hl'⟩
      · exact cacheGet_none (fun p hp hk => by have := h.lt p hp; omega)
      · rw [hl] at hl'; exact absurd hl' (by simp)
    · have h0 := h.none p1 y p2' h1 hl
      rcases hc with rfl | ⟨⟨v, rfl⟩, _⟩
      · exact h0
      · rw [cacheGet_cons_ne]
        · exact h0
        · have := @msize_lt_of_split p1 p2' y
          rw [← h1] at this
          omega

theorem stepC_cache {dsets : DSets} {share : Bool} {buf : List Byte} {off : Nat} {h : Hdr}
    {cache cache' : List (Int × (Nat × List Nat))} {es : List CEnt}
    (hs : stepC dsets share buf off h cache = .ok (es, cache')) :
    cache' = cache ∨ ((∃ v, cache' = ((off : Int), v) :: cache) ∧ ∃ d, dsetOf dsets h.did = .ok (some d)) := by
  unfold stepC at hs
  obtain ⟨o, h1, h2⟩ := Res.bind_ok hs
  cases o with
  | none =>
    simp only [Res.pure_eq, Res.ok.injEq, Prod.mk.injEq] at h2
    exact Or.inl h2.2.symm
  | some d =>
    simp only at h2
    split at h2
    · obtain ⟨rr, _, h3⟩ := Res.bind_ok h2
      simp only [Res.pure_eq, Res.ok.injEq, Prod.mk.injEq] at h3
      exact Or.inl h3.2.symm
    · obtain ⟨e, _, h3⟩ := Res.bind_ok h2
      obtain ⟨c, _, h4⟩ := Res.bind_ok h3
      cases hb : c.blocks with
      | none =>
        rw [hb] at h4
        simp only [Res.pure_eq, Res.ok.injEq, Prod.mk.injEq] at h4
        exact Or.inl h4.2.symm
      | some b =>
        rw [hb] at h4
        simp only [Res.pure_eq, Res.ok.injEq, Prod.mk.injEq] at h4
        exact Or.inr ⟨⟨b, h4.2.symm⟩, d, h1⟩

theorem stepL_cache {dsets : DSets} {share : Bool} {buf : List Byte} {off : Nat} {h : Hdr}
    {cache cache' : List (Int × List MSel)} {es : List MEnt}
    (hs : stepL dsets share buf off h cache = .ok (es, cache')) :
    cache' = cache ∨ ((∃ v, cache' = ((off : Int), v) :: cache) ∧ ∃ d, dsetOf dsets h.did = .ok (some d)) := by
  unfold stepL at hs
  obtain ⟨o, h1, h2⟩ := Res.bind_ok hs
  cases o with
  | none =>
    simp only [Res.pure_eq, Res.ok.injEq, Prod.mk.injEq] at h2
    exact Or.inl h2.2.symm
  | some d =>
    simp only at h2
    split at h2
    · obtain ⟨rr, _, h3⟩ := Res.bind_ok h2
      simp only [Res.pure_eq, Res.ok.injEq, Prod.mk.injEq] at h3
      exact Or.inl h3.2.symm
    · obtain ⟨e, _, h3⟩ := Res.bind_ok h2
      simp only [Res.pure_eq, Res.ok.injEq, Prod.mk.injEq] at h3
      exact Or.inr ⟨⟨_, h3.2.symm⟩, d, h1⟩

theorem linked_of_dsetOf {dsets : DSets} {did : Nat} {d : DInfo} (h : dsetOf dsets (did : Int) = .ok (some d)) :
    linked dsets did = true := by
  unfold dsetOf at h
  rw [if_neg (by omega)] at h
  simp only [Int.toNat_natCast] at h
  rw [linked_iff]
  split at h
  · simp at h
  · rename_i o ho
    simp only [Res.ok.injEq] at h
    exact ⟨d, by rw [ho, h]⟩

theorem SecElem.did {cfg : Cfg} {prev : List (AW × WReq)} {w : AW} {r : WReq} (he : SecElem cfg prev w r) :
    r.hdr.did = (w.did : Int) := by
  rcases he with ⟨he, _⟩ | ⟨p1, w', k, p2, _, _, _, _, _, _, he⟩ <;> rw [he] <;> rfl

/-- The compact index knows the blocks of the write `w` that follows the writes `prev` of its section. -/
def FineC (cfg : Cfg) (dsets : DSets) (prev : List (AW × WReq)) (w : AW) : Prop :=
  cfg.share = true → ∀ x, Orig cfg prev w x → linked dsets x.1.did = true ∧
    ∀ n, recOf w.d w.bs = some n → recOf x.1.d x.1.bs ≠ some n

/-- An entry of the compact index without usable blocks. -/
def CBad (x : AW × WReq) (e : CEnt) : Prop :=
  e.did = x.2.hdr.did ∧ (e.blocks = none ∨ (recDims x.1.d x.1.bs = 1 ∧ e.recd = -1 ∧
    e.blocks = some (x.1.bs.length, cflat x.1)))

theorem CacheC.keep {cfg : Cfg} {dsets : DSets} {base : Nat} {prev : List (AW × WReq)} {w : AW} {r : WReq}
    {cache : List (Int × (Nat × List Nat))} (hc : CacheC cfg dsets base prev cache)
    (h : linked dsets w.did = false ∨ r.flags.ref = true) : CacheC cfg dsets base (prev ++ [(w, r)]) cache := by
  intro hsh p1 w1 k1 p2 hsp hk1 hlk1
  rcases split_snoc hsp with ⟨h2, h1, h3⟩ | ⟨p2', h2, h1⟩
  · have e1 : w1 = w := (Prod.mk.inj h3).1
    have e2 : k1 = r := (Prod.mk.inj h3).2
    rcases h with h | h
    · rw [e1, h] at hlk1
      exact absurd hlk1 (by simp)
    · rw [← e2, hk1] at h
      exact absurd h (by simp [plain_flags_ref])
  · exact hc hsh p1 w1 k1 p2' h1 hk1 hlk1

/-- Parts of the proof of `stepC_sec` and of the following that concern references. -/
theorem refElem {cfg : Cfg} {prev : List (AW × WReq)} {w : AW} {r : WReq} (he : SecElem cfg prev w r)
    (hsh : cfg.share = true) {x : AW × WReq} (ho : Orig cfg prev w x) :
    ∃ p1 p2, prev = p1 ++ x :: p2 ∧ x.2 = AW.plain cfg x.1 (msize p1) x.2.foff ∧
      r = AW.refTo cfg w x.1 (msize p1) (msize prev) r.foff := by
  rcases he with ⟨_, hno⟩ | ⟨p1, w', k, p2, hp, hk, _, hsb, hrd, hfi, he⟩
  · obtain ⟨q1, q2, e, hf, hs⟩ := ho
    exact absurd hs (hno hsh hf.1 x (by rw [e]; simp))
  · have := Orig.unique ho (⟨p1, p2, hp, hfi, hsb, hrd⟩ : Orig cfg prev w (w', k))
    subst this
    exact ⟨p1, p2, hp, hk, he⟩

theorem stepC_exact {cfg : Cfg} {dsets : DSets} {prev : List (AW × WReq)} {w : AW} {r : WReq}
    {cache : List (Int × (Nat × List Nat))} (pre post : List Byte)
    (he : SecElem cfg prev w r) (hw : AWF cfg w) (hwp : ∀ x ∈ prev, AWF cfg x.1)
    (hf : r.hdr.Fits) (hsz : msize prev < 2 ^ 63) (hds : DsetsOK dsets w)
    (hc : CacheC cfg dsets pre.length prev cache) (hk : KeysX dsets pre.length prev cache) :
    ∃ es cache', stepC dsets cfg.share (pre ++ mbytes prev ++ r.bytes ++ post)
        (pre.length + msize prev) r.hdr cache = .ok (es, cache') ∧
      (es = [] ∧ linked dsets w.did = false ∨
        ∃ e, es = [e] ∧ ((FineC cfg dsets prev w → CEntOK (w, r) e) ∧ (¬ FineC cfg dsets prev w → CBad (w, r) e)) ∧
          linked dsets w.did = true) ∧
      CacheC cfg dsets pre.length (prev ++ [(w, r)]) cache' ∧ KeysX dsets pre.length (prev ++ [(w, r)]) cache' := by
  have hdid := he.did
  cases hlk : linked dsets w.did with
  | false =>
    refine ⟨[], cache, ?_, Or.inl ⟨rfl, rfl⟩, hc.keep (Or.inl hlk), hk.step (Or.inl rfl)⟩
    unfold stepC
    rw [hdid, dsetOf_nat _ _ hds.lt, not_linked hds.lt hlk]
    rfl
  | true =>
    by_cases hfine : FineC cfg dsets prev w
    · obtain ⟨es, cache', h1, h2, h3⟩ := stepC_sec (cfg := cfg) (dsets := dsets) (prev := prev) (w := w) (r := r)
        (cache := cache) pre post he hw hwp (fun hsh x ho => (hfine hsh x ho).2) hf hsz hds
        (fun hsh _ x ho => (hfine hsh x ho).1) hc
      refine ⟨es, cache', h1, ?_, h3, ?_⟩
      · rcases h2 with ⟨_, h2⟩ | ⟨e, e1, e2, _⟩
        · rw [hlk] at h2; simp at h2
        · exact Or.inr ⟨e, e1, ⟨fun _ => e2, fun h => absurd hfine h⟩, rfl⟩
      · refine hk.step ?_
        rcases stepC_cache h1 with h4 | ⟨h4, d, h5⟩
        · exact Or.inl h4
        · exact Or.inr ⟨h4, hlk⟩
    · have hfine' := hfine
      unfold FineC at hfine'
      have hsh : cfg.share = true := by
        by_contra hn
        exact hfine' (fun h => absurd h hn)
      obtain ⟨x, ho, hbad⟩ : ∃ x, Orig cfg prev w x ∧ (linked dsets x.1.did = false ∨
          (linked dsets x.1.did = true ∧ ∃ n, recOf w.d w.bs = some n ∧ recOf x.1.d x.1.bs = some n)) := by
        by_contra hn
        apply hfine'
        intro _ x ho
        have hl : linked dsets x.1.did = true := by
          by_contra hl
          exact hn ⟨x, ho, Or.inl (by simpa using hl)⟩
        exact ⟨hl, fun n h1 h2 => hn ⟨x, ho, Or.inr ⟨hl, n, h1, h2⟩⟩⟩
      obtain ⟨p1, p2, hp, hx2, hr⟩ := refElem he hsh ho
      obtain ⟨d', hd'⟩ := linked_iff.mp hlk
      have hd2 : dsets[w.did]'hds.lt = some d' := by
        have := hd'
        rw [List.getElem?_eq_getElem hds.lt] at this
        simpa using this
      have hoff : pre.length + msize prev = (pre ++ mbytes prev).length := by simp
      have href : r.hdr.flags.ref = true := by rw [hr]; rfl
      have hle : msize p1 ≤ msize prev := by
        have := @msize_lt_of_split p1 p2 x
        rw [← hp] at this; omega
      have hrr := rdRef_refTo (cfg := cfg) (w := w) (w' := x.1) (mo' := msize p1) (mo := msize prev)
        (foff := r.foff) hw hsz hle (pre ++ mbytes prev) post
      rw [← hr, ← hoff] at hrr
      have hkey : ((pre.length + msize prev : Nat) : Int) + ((msize p1 : Int) - (msize prev : Nat))
          = ((pre.length + msize p1 : Nat) : Int) := by omega
      have hst : stepC dsets cfg.share (pre ++ mbytes prev ++ r.bytes ++ post) (pre.length + msize prev) r.hdr cache =
          .ok ([{ did := r.hdr.did,
                  recd := (match (if r.flags.recd then some r.recnum else none : Option Nat) with
                    | some n => signed 8 n | none => -1),
                  blocks := cacheGet cache ((pre.length + msize p1 : Nat) : Int),
                  foff := r.hdr.foff, fsize := r.hdr.fsize, dsize := 0 }], cache) := by
        unfold stepC
        rw [hdid, dsetOf_nat _ _ hds.lt]
        simp only [Res.ok_bind]
        rw [hd2]
        simp only [href, hsh, Bool.and_true, if_true]
        rw [hrr]
        simp only [Res.ok_bind, Res.pure_eq]
        rw [hkey]
        cases r.flags.recd <;> rfl
      refine ⟨_, _, hst, Or.inr ⟨_, rfl, ⟨fun h => absurd h hfine, fun _ => ⟨rfl, ?_⟩⟩, rfl⟩, hc.keep (Or.inr href), hk.step (Or.inl rfl)⟩
      rcases hbad with hl | ⟨hl, n, h1, h2⟩
      · exact Or.inl (hk.none p1 x p2 hp hl)
      · refine Or.inr ⟨?_, ?_, ?_⟩
        · unfold recDims; rw [h1]; rfl
        · have hfl : r.flags.recd =
              ((recOf w.d w.bs).isSome && !((recOf w.d w.bs).isSome && (recOf x.1.d x.1.bs).isSome
                && decide ((recOf w.d w.bs).getD 0 = (recOf x.1.d x.1.bs).getD 0))) := by
            rw [hr]; rfl
          rw [hfl, h1, h2]
          simp
        · have hlook := hc hsh p1 x.1 x.2 p2 hp hx2 hl
          simp only
          rw [hlook, cflat_share hw (hwp x (by rw [hp]; simp)) ho.shares.2 ho.shares.1]

/-- The write `w` refers to an entry of a dataset that is gone. -/
def LinkBad (cfg : Cfg) (dsets : DSets) (prev : List (AW × WReq)) (w : AW) : Prop :=
  cfg.share = true ∧ linked dsets w.did = true ∧ ∃ x, Orig cfg prev w x ∧ linked dsets x.1.did = false

/-- The list index knows the offsets of the blocks of the write. -/
def FineL (cfg : Cfg) (prev : List (AW × WReq)) (w : AW) : Prop :=
  cfg.share = true → ∀ x, Orig cfg prev w x → SameDoff w x.1

theorem stepL_exact {cfg : Cfg} {dsets : DSets} {prev : List (AW × WReq)} {w : AW} {r : WReq}
    {cache : List (Int × List MSel)} (pre post : List Byte)
    (he : SecElem cfg prev w r) (hw : AWF cfg w) (hwp : ∀ x ∈ prev, AWF cfg x.1)
    (hf : r.hdr.Fits) (hsz : msize prev < 2 ^ 63) (hds : DsetsOK dsets w)
    (hc : CacheL cfg dsets pre.length prev cache) (hk : KeysX dsets pre.length prev cache) :
    (LinkBad cfg dsets prev w → stepL dsets cfg.share (pre ++ mbytes prev ++ r.bytes ++ post)
        (pre.length + msize prev) r.hdr cache = .ub) ∧
    (¬ LinkBad cfg dsets prev w → ∃ es cache', stepL dsets cfg.share (pre ++ mbytes prev ++ r.bytes ++ post)
        (pre.length + msize prev) r.hdr cache = .ok (es, cache') ∧
      (es = [] ∧ linked dsets w.did = false ∨
        ∃ e, es = [e] ∧ (EntB (w, r) e ∧ (FineL cfg prev w → EntOK (w, r) e)) ∧ linked dsets w.did = true) ∧
      CacheL cfg dsets pre.length (prev ++ [(w, r)]) cache' ∧ KeysX dsets pre.length (prev ++ [(w, r)]) cache') := by
  have hdid := he.did
  constructor
  · rintro ⟨hsh, hlk, x, ho, hl⟩
    obtain ⟨p1, p2, hp, hx2, hr⟩ := refElem he hsh ho
    obtain ⟨d', hd'⟩ := linked_iff.mp hlk
    have hd2 : dsets[w.did]'hds.lt = some d' := by
      have := hd'
      rw [List.getElem?_eq_getElem hds.lt] at this
      simpa using this
    have hoff : pre.length + msize prev = (pre ++ mbytes prev).length := by simp
    have href : r.hdr.flags.ref = true := by rw [hr]; rfl
    have hle : msize p1 ≤ msize prev := by
      have := @msize_lt_of_split p1 p2 x
      rw [← hp] at this; omega
    have hrr := rdRef_refTo (cfg := cfg) (w := w) (w' := x.1) (mo' := msize p1) (mo := msize prev)
      (foff := r.foff) hw hsz hle (pre ++ mbytes prev) post
    rw [← hr, ← hoff] at hrr
    have hh := rdHdr_req hf (pre ++ mbytes prev) post
    rw [← hoff] at hh
    have hkey : ((pre.length + msize prev : Nat) : Int) + ((msize p1 : Int) - (msize prev : Nat))
        = ((pre.length + msize p1 : Nat) : Int) := by omega
    have hpos : ¬ r.hdr.metaSize ≤ 0 := by
      have := r.metaSize_pos
      show ¬ ((r.metaSize : Int) ≤ 0)
      omega
    unfold stepL
    rw [hdid, dsetOf_nat _ _ hds.lt]
    simp only [Res.ok_bind]
    rw [hd2]
    simp only [href, hsh, Bool.and_true, if_true]
    unfold refDecode
    rw [hh]
    simp only [Res.ok_bind]
    rw [if_neg hpos, hrr]
    simp only [Res.ok_bind]
    rw [hkey, hk.none p1 x p2 hp hl]
    rfl
  · intro hno
    obtain ⟨es, cache', h1, h2, h3⟩ := stepB_sec (cfg := cfg) (dsets := dsets) (prev := prev) (w := w) (r := r)
      (cache := cache) pre post he hw hwp hf hsz hds (fun hsh hlk x ho => by
        by_contra hl
        exact hno ⟨hsh, hlk, x, ho, by simpa using hl⟩) hc
    refine ⟨es, cache', h1, h2, h3, hk.step ?_⟩
    rcases stepL_cache h1 with h4 | ⟨h4, d, h5⟩
    · exact Or.inl h4
    · rw [hdid] at h5
      exact Or.inr ⟨h4, linked_of_dsetOf h5⟩

/-! ### Parsing -/

theorem parseC_exact {cfg : Cfg} {dsets : DSets} {secs : List (List (AW × WReq))}
    (h : ∀ xs ∈ secs, SecWF cfg dsets xs) :
    ∃ es, parseC dsets cfg.share ((secs.map mbytes).flatten) = .ok es ∧
      List.Forall₂ (fun (p : List (AW × WReq) × (AW × WReq)) e =>
          (FineC cfg dsets p.1 p.2.1 → CEntOK p.2 e) ∧ (¬ FineC cfg dsets p.1 p.2.1 → CBad p.2 e))
        ((posL secs).filter (fun p => linked dsets p.2.1.did)) es := by
  obtain ⟨_, h2⟩ := parseLoop_poss
    (stepC dsets cfg.share ((secs.map mbytes).flatten)) (fun _ => False)
    (fun p es => (es = [] ∧ linked dsets p.2.1.did = false) ∨
      ∃ e, es = [e] ∧ ((FineC cfg dsets p.1 p.2.1 → CEntOK p.2 e) ∧ (¬ FineC cfg dsets p.1 p.2.1 → CBad p.2 e)) ∧
        linked dsets p.2.1.did = true)
    (fun base prev cache => CacheC cfg dsets base prev cache ∧ KeysX dsets base prev cache) ((secs.map mbytes).flatten)
    (fun base xs cache hc => ⟨by intro _ p1 w k p2 hh; simp at hh, hc.2.next⟩)
    secs [] [] ((secs.map mbytes).flatten).length (by simp)
    ⟨by intro _ p1 w k p2 hh; simp at hh, by intro p hp; simp at hp, by intro p1 x p2 e; simp at e⟩
    (fun xs hx => (h xs hx).fit)
    (by
      intro xs hx pre post hb prev x rest cache hsp hC
      have hok := h xs hx
      have hxm : x ∈ xs := by rw [hsp]; simp
      have hpm : ∀ y ∈ prev, y ∈ xs := by intro y hy; rw [hsp]; simp [hy]
      have := stepC_exact (cfg := cfg) (dsets := dsets) (prev := prev) (w := x.1) (r := x.2)
        (cache := cache) pre (mbytes rest ++ post) (hok.sec prev x rest hsp) (hok.wf x hxm)
        (fun y hy => hok.wf y (hpm y hy)) (hok.fit x hxm)
        (by have := hok.sz; rw [hsp] at this; simp at this; omega)
        (hok.ds x hxm) hC.1 hC.2
      have hb2 : (secs.map mbytes).flatten = pre ++ mbytes prev ++ x.2.bytes ++ (mbytes rest ++ post) := by
        rw [hb, hsp]; simp
      rw [← hb2] at this
      exact ⟨False.elim, fun _ => this⟩)
    (length_flatten_le secs)
  obtain ⟨ess, hF, hl⟩ := h2 (fun _ _ h => h)
  exact ⟨_, hl, forall₂_filter hF⟩

theorem parseL_exact {cfg : Cfg} {dsets : DSets} {secs : List (List (AW × WReq))}
    (h : ∀ xs ∈ secs, SecWF cfg dsets xs) :
    ((∃ p ∈ posL secs, LinkBad cfg dsets p.1 p.2.1) → parseL dsets cfg.share ((secs.map mbytes).flatten) = .ub) ∧
    ((∀ p ∈ posL secs, ¬ LinkBad cfg dsets p.1 p.2.1) → ∃ es, parseL dsets cfg.share ((secs.map mbytes).flatten) = .ok es ∧
      List.Forall₂ (fun (p : List (AW × WReq) × (AW × WReq)) e => EntB p.2 e ∧ (FineL cfg p.1 p.2.1 → EntOK p.2 e))
        ((posL secs).filter (fun p => linked dsets p.2.1.did)) es) := by
  obtain ⟨h1, h2⟩ := parseLoop_poss
    (stepL dsets cfg.share ((secs.map mbytes).flatten)) (fun p => LinkBad cfg dsets p.1 p.2.1)
    (fun p es => (es = [] ∧ linked dsets p.2.1.did = false) ∨
      ∃ e, es = [e] ∧ (EntB p.2 e ∧ (FineL cfg p.1 p.2.1 → EntOK p.2 e)) ∧ linked dsets p.2.1.did = true)
    (fun base prev cache => CacheL cfg dsets base prev cache ∧ KeysX dsets base prev cache) ((secs.map mbytes).flatten)
    (fun base xs cache hc => ⟨by intro _ p1 w k p2 hh; simp at hh, hc.2.next⟩)
    secs [] [] ((secs.map mbytes).flatten).length (by simp)
    ⟨by intro _ p1 w k p2 hh; simp at hh, by intro p hp; simp at hp, by intro p1 x p2 e; simp at e⟩
    (fun xs hx => (h xs hx).fit)
    (by
      intro xs hx pre post hb prev x rest cache hsp hC
      have hok := h xs hx
      have hxm : x ∈ xs := by rw [hsp]; simp
      have hpm : ∀ y ∈ prev, y ∈ xs := by intro y hy; rw [hsp]; simp [hy]
      have := stepL_exact (cfg := cfg) (dsets := dsets) (prev := prev) (w := x.1) (r := x.2)
        (cache := cache) pre (mbytes rest ++ post) (hok.sec prev x rest hsp) (hok.wf x hxm)
        (fun y hy => hok.wf y (hpm y hy)) (hok.fit x hxm)
        (by have := hok.sz; rw [hsp] at this; simp at this; omega)
        (hok.ds x hxm) hC.1 hC.2
      have hb2 : (secs.map mbytes).flatten = pre ++ mbytes prev ++ x.2.bytes ++ (mbytes rest ++ post) := by
        rw [hb, hsp]; simp
      rw [← hb2] at this
      exact this)
    (length_flatten_le secs)
  refine ⟨h1, fun hno => ?_⟩
  obtain ⟨ess, hF, hl⟩ := h2 hno
  exact ⟨_, hl, forall₂_filter hF⟩

end Verif
