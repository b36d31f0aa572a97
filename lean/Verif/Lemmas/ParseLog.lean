import Verif.Lemmas.Parse
import Mathlib.Data.List.Forall2

namespace Verif

open Spec (AW)

variable {ε κ : Type}

theorem advance_req (off : Nat) (r : WReq) : advance off r.hdr = .ok (off + r.metaSize) := by
  unfold advance
  have := r.metaSize_pos
  have e : r.hdr.metaSize = (r.metaSize : Int) := rfl
  rw [e, if_neg (by omega)]
  simp

/-- Parsing one section, continuing with whatever follows. -/
theorem parseLoop_section (step : Nat → Hdr → List (Int × κ) → Res (List ε × List (Int × κ)))
    (R : AW × WReq → List ε → Prop) (C : List (AW × WReq) → List (Int × κ) → Prop)
    (buf pre post : List Byte) (xs : List (AW × WReq)) (hbuf : buf = pre ++ mbytes xs ++ post)
    (hfit : ∀ x ∈ xs, x.2.hdr.Fits)
    (hstep : ∀ prev x rest cache, xs = prev ++ x :: rest → C prev cache →
      ∃ es cache', step (pre.length + msize prev) x.2.hdr cache = .ok (es, cache') ∧ R x es ∧
        C (prev ++ [x]) cache') :
    ∀ ys prev cache fuel, xs = prev ++ ys → C prev cache → ys.length ≤ fuel →
      ∃ ess cache', List.Forall₂ R ys ess ∧
        parseLoop step buf fuel (pre.length + msize prev) cache =
          (do let es ← parseLoop step buf (fuel - ys.length) (pre.length + msize xs) cache'
              return ess.flatten ++ es) := by
  intro ys
  induction ys with
  | nil =>
    intro prev cache fuel hx hc _
    simp only [List.append_nil] at hx
    subst hx
    refine ⟨[], cache, List.Forall₂.nil, ?_⟩
    simp only [List.length_nil, Nat.sub_zero, List.flatten_nil, List.nil_append]
    cases parseLoop step buf fuel (pre.length + msize xs) cache <;> rfl
  | cons y ys ih =>
    intro prev cache fuel hx hc hfuel
    obtain ⟨es, cache', hs, hR, hC⟩ := hstep prev y ys cache hx hc
    obtain ⟨fuel, rfl⟩ : ∃ f, fuel = f + 1 := ⟨fuel - 1, by simp at hfuel; omega⟩
    have hx' : xs = (prev ++ [y]) ++ ys := by rw [hx]; simp
    obtain ⟨ess, c2, hF, hloop⟩ := ih (prev ++ [y]) cache' fuel hx' hC (by simp at hfuel; omega)
    refine ⟨es :: ess, c2, List.Forall₂.cons hR hF, ?_⟩
    have hb2 : buf = (pre ++ mbytes prev) ++ y.2.bytes ++ (mbytes ys ++ post) := by
      rw [hbuf, hx]; simp
    have hh : rdHdr buf (pre.length + msize prev) = .ok y.2.hdr := by
      rw [hb2]
      have := rdHdr_req (hfit y (by rw [hx]; simp)) (pre ++ mbytes prev) (mbytes ys ++ post)
      rw [List.length_append, mbytes_length] at this
      exact this
    have hlt : pre.length + msize prev < buf.length := by
      have := y.2.metaSize_pos
      rw [hb2]
      simp only [List.length_append, mbytes_length, WReq.bytes_length]
      omega
    rw [parseLoop, if_pos hlt, hh]
    simp only [Res.ok_bind]
    rw [hs]
    simp only [Res.ok_bind]
    rw [advance_req]
    simp only [Res.ok_bind]
    have ho : pre.length + msize prev + y.2.metaSize = pre.length + msize (prev ++ [y]) := by
      simp; omega
    rw [ho, hloop]
    simp only [List.length_cons, Nat.add_sub_add_right]
    cases parseLoop step buf (fuel - ys.length) (pre.length + msize xs) c2 <;>
      simp [List.append_assoc]

/-- Parsing a sequence of sections. -/
theorem parseLoop_sections (step : Nat → Hdr → List (Int × κ) → Res (List ε × List (Int × κ)))
    (R : AW × WReq → List ε → Prop) (C : Nat → List (AW × WReq) → List (Int × κ) → Prop)
    (buf : List Byte) (hC0 : ∀ base cache, C base [] cache) :
    ∀ (secs : List (List (AW × WReq))) (pre : List Byte) (cache : List (Int × κ)) (fuel : Nat),
      buf = pre ++ (secs.map mbytes).flatten →
      (∀ xs ∈ secs, ∀ x ∈ xs, x.2.hdr.Fits) →
      (∀ xs ∈ secs, ∀ pre post, buf = pre ++ mbytes xs ++ post →
        ∀ prev x rest cache, xs = prev ++ x :: rest → C pre.length prev cache →
        ∃ es cache', step (pre.length + msize prev) x.2.hdr cache = .ok (es, cache') ∧ R x es ∧
          C pre.length (prev ++ [x]) cache') →
      secs.flatten.length ≤ fuel →
      ∃ ess, List.Forall₂ R secs.flatten ess ∧
        parseLoop step buf fuel pre.length cache = .ok ess.flatten := by
  intro secs
  induction secs with
  | nil =>
    intro pre cache fuel hb _ _ _
    refine ⟨[], List.Forall₂.nil, ?_⟩
    have : ¬ pre.length < buf.length := by rw [hb]; simp
    cases fuel <;> simp [parseLoop, this]
  | cons xs secs ih =>
    intro pre cache fuel hb hfit hstep hfuel
    have hb1 : buf = pre ++ mbytes xs ++ (secs.map mbytes).flatten := by rw [hb]; simp
    simp only [List.flatten_cons, List.length_append] at hfuel
    obtain ⟨ess, c1, hF, hl⟩ := parseLoop_section step R (C pre.length) buf pre
      ((secs.map mbytes).flatten) xs hb1 (hfit xs (by simp))
      (hstep xs (by simp) pre _ hb1) xs [] cache fuel rfl (hC0 _ _) (by omega)
    simp only [msize_nil, Nat.add_zero] at hl
    obtain ⟨ess2, hF2, hl2⟩ := ih (pre ++ mbytes xs) c1 (fuel - xs.length)
      (by rw [hb1])
      (fun ys hy => hfit ys (by simp [hy]))
      (fun ys hy => hstep ys (by simp [hy])) (by omega)
    rw [List.length_append, mbytes_length] at hl2
    refine ⟨ess ++ ess2, List.rel_append hF hF2, ?_⟩
    rw [hl, hl2]
    simp

theorem length_le_msize (xs : List (AW × WReq)) : xs.length ≤ msize xs := by
  induction xs with
  | nil => simp
  | cons x xs ih =>
    have := x.2.metaSize_pos
    simp; omega

theorem length_flatten_le (secs : List (List (AW × WReq))) :
    secs.flatten.length ≤ ((secs.map mbytes).flatten).length := by
  induction secs with
  | nil => simp
  | cons xs secs ih =>
    have := length_le_msize xs
    simp only [List.flatten_cons, List.length_append, List.map_cons, mbytes_length]
    omega

/-- Entries for the linked writes only. -/
theorem forall₂_filter {α : Type} {P : α → Bool} {Q : α → ε → Prop} {xs : List α}
    {ess : List (List ε)}
    (h : List.Forall₂ (fun x es => (es = [] ∧ P x = false) ∨ ∃ e, es = [e] ∧ Q x e ∧ P x = true) xs ess) :
    List.Forall₂ Q (xs.filter P) ess.flatten := by
  induction h with
  | nil => exact List.Forall₂.nil
  | @cons x es xs ess h1 _ ih =>
    rcases h1 with ⟨rfl, hp⟩ | ⟨e, rfl, hq, hp⟩
    · simpa [List.filter_cons, hp] using ih
    · simp only [List.filter_cons, hp, if_true, List.flatten_cons, List.singleton_append]
      exact List.Forall₂.cons hq ih

/-- Conditions on a metadata section for it to be readable. -/
structure SecOK (cfg : Cfg) (dsets : DSets) (xs : List (AW × WReq)) : Prop where
  sec : IsSection cfg xs
  wf : ∀ x ∈ xs, AWF cfg x.1
  fit : ∀ x ∈ xs, x.2.hdr.Fits
  sz : msize xs < 2 ^ 63
  ds : ∀ x ∈ xs, DsetsOK dsets x.1
  /-- no reference from a dataset that can be opened to one that cannot -/
  link : cfg.share = true → ∀ p x, (∃ q y s, xs = p ++ x :: (q ++ y :: s) ∧
    Shares cfg x.1 y.1 ∧ linked dsets y.1.did = true) →
    linked dsets x.1.did = true

/-- Pairs that share an entry have the same element size or a single block (list index). -/
def ListShare (cfg : Cfg) (xs : List (AW × WReq)) : Prop :=
  cfg.share = true → ∀ p x q y s, xs = p ++ x :: (q ++ y :: s) →
    Shares cfg x.1 y.1 → SameDoff y.1 x.1

/-- No selection confined to one record is written twice (compact index). -/
def CompactShare (cfg : Cfg) (xs : List (AW × WReq)) : Prop :=
  cfg.share = true → ∀ p x q y s, xs = p ++ x :: (q ++ y :: s) →
    Shares cfg x.1 y.1 →
    ∀ n, recOf y.1.d y.1.bs = some n → recOf x.1.d x.1.bs ≠ some n

theorem mem_split_before {α : Type} {prev rest : List α} {x y : α} (hy : y ∈ prev) :
    ∃ p q, prev ++ x :: rest = p ++ y :: (q ++ x :: rest) := by
  obtain ⟨p, q, rfl⟩ := List.append_of_mem hy
  exact ⟨p, q, by simp⟩

theorem parseL_sections {cfg : Cfg} {dsets : DSets} {secs : List (List (AW × WReq))}
    (h : ∀ xs ∈ secs, SecOK cfg dsets xs) (hs : ∀ xs ∈ secs, ListShare cfg xs) :
    ∃ es, parseL dsets cfg.share ((secs.map mbytes).flatten) = .ok es ∧
      List.Forall₂ EntOK (secs.flatten.filter (fun x => linked dsets x.1.did)) es := by
  obtain ⟨ess, hF, hl⟩ := parseLoop_sections
    (stepL dsets cfg.share ((secs.map mbytes).flatten))
    (fun x es => (es = [] ∧ linked dsets x.1.did = false) ∨
      ∃ e, es = [e] ∧ EntOK x e ∧ linked dsets x.1.did = true)
    (CacheL cfg dsets) ((secs.map mbytes).flatten)
    (by intro base cache _ p1 w k p2 hh; simp at hh)
    secs [] [] ((secs.map mbytes).flatten).length (by simp) (fun xs hx => (h xs hx).fit)
    (by
      intro xs hx pre post hb prev x rest cache hsp hC
      have hok := h xs hx
      have hxm : x ∈ xs := by rw [hsp]; simp
      have hpm : ∀ y ∈ prev, y ∈ xs := by intro y hy; rw [hsp]; simp [hy]
      have := stepL_sec (cfg := cfg) (dsets := dsets) (prev := prev) (w := x.1) (r := x.2)
        (cache := cache) pre (mbytes rest ++ post) (hok.sec prev x rest hsp) (hok.wf x hxm)
        (fun y hy => hok.wf y (hpm y hy))
        (fun hsh y ho => by
          have he := ho.shares
          obtain ⟨p, q, hpq⟩ := mem_split_before (x := x) (rest := rest) ho.mem
          exact hs xs hx hsh p y q x rest (hsp.trans hpq) he)
        (hok.fit x hxm)
        (by have := hok.sz; rw [hsp] at this; simp at this; omega)
        (hok.ds x hxm)
        (fun hsh hlk y ho => by
          have he := ho.shares
          obtain ⟨p, q, hpq⟩ := mem_split_before (x := x) (rest := rest) ho.mem
          exact hok.link hsh p y ⟨q, x, rest, hsp.trans hpq, he, hlk⟩) hC
      have hb2 : (secs.map mbytes).flatten = pre ++ mbytes prev ++ x.2.bytes ++ (mbytes rest ++ post) := by
        rw [hb, hsp]; simp
      rw [← hb2] at this
      exact this)
    (length_flatten_le secs)
  exact ⟨_, hl, forall₂_filter hF⟩

/-- Without conditions on element sizes: headers and blocks. -/
theorem parseB_sections {cfg : Cfg} {dsets : DSets} {secs : List (List (AW × WReq))}
    (h : ∀ xs ∈ secs, SecOK cfg dsets xs) :
    ∃ es, parseL dsets cfg.share ((secs.map mbytes).flatten) = .ok es ∧
      List.Forall₂ EntB (secs.flatten.filter (fun x => linked dsets x.1.did)) es := by
  obtain ⟨ess, hF, hl⟩ := parseLoop_sections
    (stepL dsets cfg.share ((secs.map mbytes).flatten))
    (fun x es => (es = [] ∧ linked dsets x.1.did = false) ∨
      ∃ e, es = [e] ∧ EntB x e ∧ linked dsets x.1.did = true)
    (CacheL cfg dsets) ((secs.map mbytes).flatten)
    (by intro base cache _ p1 w k p2 hh; simp at hh)
    secs [] [] ((secs.map mbytes).flatten).length (by simp) (fun xs hx => (h xs hx).fit)
    (by
      intro xs hx pre post hb prev x rest cache hsp hC
      have hok := h xs hx
      have hxm : x ∈ xs := by rw [hsp]; simp
      have hpm : ∀ y ∈ prev, y ∈ xs := by intro y hy; rw [hsp]; simp [hy]
      have := stepB_sec (cfg := cfg) (dsets := dsets) (prev := prev) (w := x.1) (r := x.2)
        (cache := cache) pre (mbytes rest ++ post) (hok.sec prev x rest hsp) (hok.wf x hxm)
        (fun y hy => hok.wf y (hpm y hy))
        (hok.fit x hxm)
        (by have := hok.sz; rw [hsp] at this; simp at this; omega)
        (hok.ds x hxm)
        (fun hsh hlk y ho => by
          have he := ho.shares
          obtain ⟨p, q, hpq⟩ := mem_split_before (x := x) (rest := rest) ho.mem
          exact hok.link hsh p y ⟨q, x, rest, hsp.trans hpq, he, hlk⟩) hC
      have hb2 : (secs.map mbytes).flatten = pre ++ mbytes prev ++ x.2.bytes ++ (mbytes rest ++ post) := by
        rw [hb, hsp]; simp
      rw [← hb2] at this
      obtain ⟨es, cache', t1, t2, t3⟩ := this
      refine ⟨es, cache', t1, ?_, t3⟩
      rcases t2 with t2 | ⟨e, e1, e2, e3⟩
      · exact Or.inl t2
      · exact Or.inr ⟨e, e1, e2.1, e3⟩)
    (length_flatten_le secs)
  exact ⟨_, hl, forall₂_filter hF⟩

theorem parseC_sections {cfg : Cfg} {dsets : DSets} {secs : List (List (AW × WReq))}
    (h : ∀ xs ∈ secs, SecOK cfg dsets xs) (hs : ∀ xs ∈ secs, CompactShare cfg xs) :
    ∃ es, parseC dsets cfg.share ((secs.map mbytes).flatten) = .ok es ∧
      List.Forall₂ CEntOK (secs.flatten.filter (fun x => linked dsets x.1.did)) es := by
  obtain ⟨ess, hF, hl⟩ := parseLoop_sections
    (stepC dsets cfg.share ((secs.map mbytes).flatten))
    (fun x es => (es = [] ∧ linked dsets x.1.did = false) ∨
      ∃ e, es = [e] ∧ CEntOK x e ∧ linked dsets x.1.did = true)
    (CacheC cfg dsets) ((secs.map mbytes).flatten)
    (by intro base cache _ p1 w k p2 hh; simp at hh)
    secs [] [] ((secs.map mbytes).flatten).length (by simp) (fun xs hx => (h xs hx).fit)
    (by
      intro xs hx pre post hb prev x rest cache hsp hC
      have hok := h xs hx
      have hxm : x ∈ xs := by rw [hsp]; simp
      have hpm : ∀ y ∈ prev, y ∈ xs := by intro y hy; rw [hsp]; simp [hy]
      have := stepC_sec (cfg := cfg) (dsets := dsets) (prev := prev) (w := x.1) (r := x.2)
        (cache := cache) pre (mbytes rest ++ post) (hok.sec prev x rest hsp) (hok.wf x hxm)
        (fun y hy => hok.wf y (hpm y hy))
        (fun hsh y ho => by
          have he := ho.shares
          obtain ⟨p, q, hpq⟩ := mem_split_before (x := x) (rest := rest) ho.mem
          exact hs xs hx hsh p y q x rest (hsp.trans hpq) he)
        (hok.fit x hxm)
        (by have := hok.sz; rw [hsp] at this; simp at this; omega)
        (hok.ds x hxm)
        (fun hsh hlk y ho => by
          have he := ho.shares
          obtain ⟨p, q, hpq⟩ := mem_split_before (x := x) (rest := rest) ho.mem
          exact hok.link hsh p y ⟨q, x, rest, hsp.trans hpq, he, hlk⟩) hC
      have hb2 : (secs.map mbytes).flatten = pre ++ mbytes prev ++ x.2.bytes ++ (mbytes rest ++ post) := by
        rw [hb, hsp]; simp
      rw [← hb2] at this
      exact this)
    (length_flatten_le secs)
  exact ⟨_, hl, forall₂_filter hF⟩

end Verif
