import Verif.Lemmas.Log

/-
C05 (parsing a log), C06 (metadata sharing), C07 (the two indexes agree), C12 (intersection),
C45 (removed datasets).
-/

namespace Verif.Props

open Spec (AW LogOK Describes InBlk)

/-- **C05, list index.** Without sharing, parsing the metadata log of any sequences of writes
(one per process) succeeds without leaving the buffer and yields exactly one entry per write to a
dataset that is present, in order, each describing its write. -/
theorem C05_parse_list (cfg : Cfg) (hcfg : cfg.share = false) (dsets : DSets)
    (ps : List (List (AW × Int))) (h : LogOK cfg dsets ps) :
    ∃ buf es, metaOf cfg ps = .ok buf ∧ parseL dsets cfg.share buf = .ok es ∧
      List.Forall₂ (fun x e => Describes x e.hdr.did e.hdr.foff e.hdr.fsize e.sels)
        (Spec.visible dsets ps) es := by
  obtain ⟨secs, h1, h2, h3, h4, h5, _⟩ := log_sections h
  obtain ⟨es, g1, g2⟩ := parseL_sections h3 (h5 (by simp [hcfg]))
  refine ⟨_, es, h1, g1, ?_⟩
  rw [visible_eq h2]
  exact describes_L (fun x hx => h4 x (List.mem_of_mem_filter hx)) g2

/-- All coordinates of the writes of the log are below `2^63`. -/
def Coords63 (ps : List (List (AW × Int))) : Prop :=
  ∀ p ∈ ps, ∀ x ∈ p, ∀ b ∈ x.1.bs, ∀ n ∈ b.start, n < 2 ^ 63

theorem rec63 {ps : List (List (AW × Int))} {secs : List (List (AW × WReq))} (h : Coords63 ps)
    (h2 : ps.flatten = secs.flatten.map (fun x => (x.1, x.2.foff)))
    (hne : ∀ x ∈ secs.flatten, x.1.bs ≠ []) :
    ∀ x ∈ secs.flatten, ∀ n, recOf x.1.d x.1.bs = some n → n < 2 ^ 63 := by
  intro x hx n hn
  have hm : (x.1, x.2.foff) ∈ ps.flatten := by
    rw [h2]; exact List.mem_map_of_mem (f := fun x : AW × WReq => (x.1, x.2.foff)) hx
  rw [List.mem_flatten] at hm
  obtain ⟨p, hp, hxp⟩ := hm
  obtain ⟨b, bs, hb⟩ := List.exists_cons_of_ne_nil (hne x hx)
  have h0 := ((recOf_some hn).2 b (by rw [hb]; simp)).1
  exact h p hp _ hxp b (by rw [hb]; simp) n (List.mem_of_head? h0)

/-- **C05, compact index.** -/
theorem C05_parse_compact (cfg : Cfg) (hcfg : cfg.share = false) (dsets : DSets)
    (ps : List (List (AW × Int))) (h : LogOK cfg dsets ps) (hc : Coords63 ps) :
    ∃ buf es, metaOf cfg ps = .ok buf ∧ parseC dsets cfg.share buf = .ok es ∧
      List.Forall₂ (fun x e => ∃ d sels, dsets[x.1.did]? = some (some d) ∧
          Spec.compactSels d e = .ok sels ∧ Describes x e.did e.foff e.fsize sels)
        (Spec.visible dsets ps) es := by
  obtain ⟨secs, h1, h2, h3, h4, _, h6⟩ := log_sections h
  obtain ⟨es, g1, g2⟩ := parseC_sections h3 (h6 (by simp [hcfg]))
  refine ⟨_, es, h1, g1, ?_⟩
  rw [visible_eq h2]
  refine describes_C (fun x hx => h4 x (List.mem_of_mem_filter hx)) ?_ ?_ g2
  · intro x hx; exact (List.mem_filter.mp hx).2
  · intro x hx
    exact rec63 hc h2 (fun y hy => (h4 y hy).rcd.sel.ne) x (List.mem_of_mem_filter hx)

theorem logOK_unshare {cfg : Cfg} {dsets : DSets} {ps : List (List (AW × Int))}
    (h : LogOK cfg dsets ps) : LogOK { cfg with share := false } dsets ps :=
  ⟨fun p hp x hx => ⟨(h.recordable p hp x hx).sel, (h.recordable p hp x hx).rep,
      (h.recordable p hp x hx).enc⟩,
    h.known, h.len, by simp, by simp⟩

/-- What an entry of the list index says. -/
def viewL (e : MEnt) : Int × Int × Int × List MSel := (e.hdr.did, e.hdr.foff, e.hdr.fsize, e.sels)

/-- What an entry of the compact index says, given the datasets known to the reader. -/
def viewC (dsets : DSets) (e : CEnt) : Int × Int × Int × Option (Res (List MSel)) :=
  (e.did, e.foff, e.fsize, (dsets[e.did.toNat]?.bind id).map (fun d => Spec.compactSels d e))

theorem viewL_describes {xs : List (AW × Int)} {es es' : List MEnt}
    (h : List.Forall₂ (fun x (e : MEnt) => Describes x e.hdr.did e.hdr.foff e.hdr.fsize e.sels) xs es)
    (h' : List.Forall₂ (fun x (e : MEnt) => Describes x e.hdr.did e.hdr.foff e.hdr.fsize e.sels) xs es') :
    es.map viewL = es'.map viewL := by
  induction h generalizing es' with
  | nil => cases h'; rfl
  | cons h1 _ ih =>
    cases h' with
    | cons h2 h3 =>
      rw [List.map_cons, List.map_cons, ih h3]
      simp only [viewL, h1.did, h1.foff, h1.fsize, h1.sels, h2.did, h2.foff, h2.fsize, h2.sels]

/-- **C06, list index (partial).** With sharing on, the log reads back as with sharing off, provided
no process mixes (with selection encoding on) multi-block writes that are confined to a record with
multi-block writes that are not, no write repeats a selection of a removed dataset, and repeated
multi-block selections have the same element size. Missing: logs outside these conditions; see the
`C06_..._violated` theorems. -/
theorem C06_sharing_list_partial (cfg : Cfg) (dsets : DSets)
    (ps : List (List (AW × Int))) (h : LogOK cfg dsets ps) (hs : Spec.SameSizes ps) :
    ∃ buf es buf' es', metaOf cfg ps = .ok buf ∧ parseL dsets cfg.share buf = .ok es ∧
      metaOf { cfg with share := false } ps = .ok buf' ∧ parseL dsets false buf' = .ok es' ∧
      es.map viewL = es'.map viewL := by
  obtain ⟨secs, h1, h2, h3, h4, h5, _⟩ := log_sections h
  obtain ⟨es, g1, g2⟩ := parseL_sections h3 (h5 (fun _ => hs))
  have hd := describes_L (fun x hx => h4 x (List.mem_of_mem_filter hx)) g2
  rw [← visible_eq h2] at hd
  obtain ⟨buf', es', k1, k2, k3⟩ := C05_parse_list _ rfl dsets ps (logOK_unshare h)
  exact ⟨_, es, buf', es', h1, g1, k1, k2, viewL_describes hd k3⟩

theorem viewC_describes {dsets : DSets} {xs : List (AW × Int)} {es es' : List CEnt}
    (h : List.Forall₂ (fun x (e : CEnt) => ∃ d sels, dsets[x.1.did]? = some (some d) ∧
          Spec.compactSels d e = .ok sels ∧ Describes x e.did e.foff e.fsize sels) xs es)
    (h' : List.Forall₂ (fun x (e : CEnt) => ∃ d sels, dsets[x.1.did]? = some (some d) ∧
          Spec.compactSels d e = .ok sels ∧ Describes x e.did e.foff e.fsize sels) xs es') :
    es.map (viewC dsets) = es'.map (viewC dsets) := by
  induction h generalizing es' with
  | nil => cases h'; rfl
  | cons h1 _ ih =>
    cases h' with
    | cons h2 h3 =>
      rw [List.map_cons, List.map_cons, ih h3]
      congr 1
      obtain ⟨d, s, a1, a2, a3⟩ := h1
      obtain ⟨d', s', b1, b2, b3⟩ := h2
      rw [a1] at b1
      simp only [Option.some.injEq] at b1
      subst b1
      unfold viewC
      rw [a3.did, a3.foff, a3.fsize, b3.did, b3.foff, b3.fsize]
      simp only [Int.toNat_natCast, a1, Option.bind_some, id, Option.map_some, a2, b2, a3.sels, b3.sels]

/-- **C06, compact index (partial).** Same, provided no write confined to a record repeats the exact
blocks of an earlier write of its process in the same epoch (element sizes do not matter here). -/
theorem C06_sharing_compact_partial (cfg : Cfg) (dsets : DSets)
    (ps : List (List (AW × Int))) (h : LogOK cfg dsets ps) (hc : Coords63 ps) (hs : Spec.NoRepeat ps) :
    ∃ buf es buf' es', metaOf cfg ps = .ok buf ∧ parseC dsets cfg.share buf = .ok es ∧
      metaOf { cfg with share := false } ps = .ok buf' ∧ parseC dsets false buf' = .ok es' ∧
      es.map (viewC dsets) = es'.map (viewC dsets) := by
  obtain ⟨secs, h1, h2, h3, h4, _, h6⟩ := log_sections h
  obtain ⟨es, g1, g2⟩ := parseC_sections h3 (h6 (fun _ => hs))
  have hd := describes_C (fun x hx => h4 x (List.mem_of_mem_filter hx))
    (fun x hx => (List.mem_filter.mp hx).2)
    (fun x hx => rec63 hc h2 (fun y hy => (h4 y hy).rcd.sel.ne) x (List.mem_of_mem_filter hx)) g2
  rw [← visible_eq h2] at hd
  obtain ⟨buf', es', k1, k2, k3⟩ := C05_parse_compact _ rfl dsets ps (logOK_unshare h) hc
  exact ⟨_, es, buf', es', h1, g1, k1, k2, viewC_describes hd k3⟩

/-- A request for blocks of a dataset that is present; coordinates below `2^31` where the code uses
`int`. -/
structure RequestOK (dsets : DSets) (ps : List (List (AW × Int))) (q : RReq) : Prop where
  dset : dsets[q.did]? = some (some q.d)
  blk : ∀ b ∈ q.bs, b.start.length = q.d.ndim ∧ b.count.length = q.d.ndim
  cnt : ∀ b ∈ q.bs, ∀ n ∈ b.count, n < 2 ^ 31
  src : ∀ p ∈ ps, ∀ x ∈ p, ∀ b ∈ x.1.bs, ∀ n ∈ b.count, n < 2 ^ 31

/-- First coordinates below `2^31` (the compact index computes record distances as `int`). -/
structure Records31 (ps : List (List (AW × Int))) (q : RReq) : Prop where
  src : ∀ p ∈ ps, ∀ x ∈ p, ∀ b ∈ x.1.bs, ∀ n, b.start.head? = some n → n < 2 ^ 31
  tgt : ∀ b ∈ q.bs, ∀ n, b.start.head? = some n → n < 2 ^ 31

theorem mem_ps {ps : List (List (AW × Int))} {secs : List (List (AW × WReq))}
    (h2 : ps.flatten = secs.flatten.map (fun x => (x.1, x.2.foff))) {x : AW × WReq}
    (hx : x ∈ secs.flatten) : ∃ p ∈ ps, (x.1, x.2.foff) ∈ p := by
  have hm : (x.1, x.2.foff) ∈ ps.flatten := by
    rw [h2]; exact List.mem_map_of_mem (f := fun x : AW × WReq => (x.1, x.2.foff)) hx
  rw [List.mem_flatten] at hm
  obtain ⟨p, hp, hxp⟩ := hm
  exact ⟨p, hp, hxp⟩

theorem reqOK_of {cfg : Cfg} {dsets : DSets} {ps : List (List (AW × Int))}
    {secs : List (List (AW × WReq))} {q : RReq}
    (h2 : ps.flatten = secs.flatten.map (fun x => (x.1, x.2.foff)))
    (h4 : ∀ x ∈ secs.flatten, Recordable' cfg dsets x) (hq : RequestOK dsets ps q) :
    ReqOK q (secs.flatten.filter (fun x => linked dsets x.1.did)) := by
  refine ⟨?_, ?_, ?_, ?_, ?_⟩
  · intro x hx
    have := (h4 x (List.mem_of_mem_filter hx)).did
    simp [WReq.hdr, this]
  · intro x hx hd
    exact (h4 x (List.mem_of_mem_filter hx)).known.same q.d (by rw [hd]; exact hq.dset)
  · intro x hx
    exact (h4 x (List.mem_of_mem_filter hx)).rcd.sel
  · intro x hx b hb
    obtain ⟨p, hp, hxp⟩ := mem_ps h2 (List.mem_of_mem_filter hx)
    exact hq.src p hp _ hxp b hb
  · intro b hb
    exact ⟨(hq.blk b hb).1, (hq.blk b hb).2, hq.cnt b hb⟩

theorem creqOK_of {dsets : DSets} {ps : List (List (AW × Int))}
    {secs : List (List (AW × WReq))} {q : RReq}
    (h2 : ps.flatten = secs.flatten.map (fun x => (x.1, x.2.foff)))
    (hne : ∀ x ∈ secs.flatten, x.1.bs ≠ []) (hr : Records31 ps q) :
    CReqOK q (secs.flatten.filter (fun x => linked dsets x.1.did)) := by
  refine ⟨?_, hr.tgt⟩
  intro x hx _ n hn
  have hx' := List.mem_of_mem_filter hx
  obtain ⟨p, hp, hxp⟩ := mem_ps h2 hx'
  obtain ⟨b, bs, hb⟩ := List.exists_cons_of_ne_nil (hne x hx')
  exact hr.src p hp _ hxp b (by rw [hb]; simp) n ((recOf_some hn).2 b (by rw [hb]; simp)).1

/-- **C07 (partial).** For every log produced by the writer and every request, both indexes find the
same matches in the same order (the unfiltered entry size, used only for filtered datasets, left
aside). Missing: logs outside the sharing conditions of C06; see `C07_indexes_violated`. -/
theorem C07_indexes_partial (cfg : Cfg) (dsets : DSets) (ps : List (List (AW × Int))) (q : RReq)
    (h : LogOK cfg dsets ps) (hl : cfg.share = true → Spec.SameSizes ps)
    (hc : cfg.share = true → Spec.NoRepeat ps) (hq : RequestOK dsets ps q) (hr : Records31 ps q) :
    ∃ buf es cs hs hs', metaOf cfg ps = .ok buf ∧
      parseL dsets cfg.share buf = .ok es ∧ searchL es q = .ok hs ∧
      parseC dsets cfg.share buf = .ok cs ∧ searchC cs q = .ok hs' ∧
      hs.map Hit.noX = hs'.map Hit.noX := by
  obtain ⟨secs, h1, h2, h3, h4, h5, h6⟩ := log_sections h
  obtain ⟨es, a1, a2⟩ := parseL_sections h3 (h5 hl)
  obtain ⟨cs, b1, b2⟩ := parseC_sections h3 (h6 hc)
  have hrq := reqOK_of h2 h4 hq
  obtain ⟨hs, c1, c2⟩ := searchL_ok hrq a2
  obtain ⟨hs', d1, d2⟩ := searchC_ok hrq (creqOK_of h2 (fun x hx => (h4 x hx).rcd.sel.ne) hr) b2
  exact ⟨_, es, cs, hs, hs', h1, a1, c1, b1, d1, by rw [c2, d2]⟩

/-- **C12.** The overlap of a written block with a requested block is exact: it is empty iff the
blocks share no cell, and otherwise contains exactly the common cells. -/
theorem C12_intersect_exact (n : Nat) (b rb : Blk) (h1 : b.start.length = n) (h2 : b.count.length = n)
    (h3 : rb.start.length = n) (h4 : rb.count.length = n) :
    (intersect b.start b.count rb.start rb.count = none ↔ ¬ ∃ x, InBlk b x ∧ InBlk rb x) ∧
    ∀ os oc, intersect b.start b.count rb.start rb.count = some (os, oc) →
      ∀ x, InBlk ⟨os, oc⟩ x ↔ InBlk b x ∧ InBlk rb x := by
  refine ⟨⟨?_, ?_⟩, ?_⟩
  · rintro h ⟨x, hx⟩
    exact intersect_none h x hx
  · intro h
    cases hi : intersect b.start b.count rb.start rb.count with
    | none => rfl
    | some o =>
      exfalso
      apply h
      refine ⟨o.1, ?_⟩
      have hn := intersect_nonempty (os := o.1) (oc := o.2) hi (by omega) (by omega) (by omega)
      exact ((intersect_some (os := o.1) (oc := o.2) (by omega) (by omega) (by omega) hi).2.2.1 o.1).mp hn
  · intro os oc hi x
    exact (intersect_some (by omega) (by omega) (by omega) hi).2.2.1 x

/-- The datasets after some have been removed. -/
def removeDsets (gone : Nat → Bool) (dsets : DSets) : DSets :=
  dsets.mapIdx (fun i o => if gone i then none else o)

theorem removeDsets_get {gone : Nat → Bool} {dsets : DSets} {i : Nat} (h : gone i = false) :
    (removeDsets gone dsets)[i]? = dsets[i]? := by
  unfold removeDsets
  rw [List.getElem?_mapIdx]
  cases dsets[i]? <;> simp [h]

theorem known_remove {gone : Nat → Bool} {dsets : DSets} {w : AW} (h : Spec.Known dsets w) :
    Spec.Known (removeDsets gone dsets) w := by
  refine ⟨by simpa [removeDsets] using h.lt, ?_⟩
  intro d hd
  apply h.same d
  unfold removeDsets at hd
  rw [List.getElem?_mapIdx] at hd
  cases hx : dsets[w.did]? with
  | none => rw [hx] at hd; simp at hd
  | some o =>
    rw [hx] at hd
    simp only [Option.map_some, Option.some.injEq] at hd
    split at hd
    · simp at hd
    · rw [hd]

theorem hitsOf_filter {dsets : DSets} {q : RReq} {xs : List (AW × WReq)}
    (h : linked dsets q.did = true) :
    hitsOf q (xs.filter (fun x => linked dsets x.1.did)) = hitsOf q xs := by
  unfold hitsOf
  rw [List.filter_filter]
  congr 1
  funext p
  congr 1
  apply List.filter_congr
  intro x _
  by_cases hd : x.1.did = q.did
  · simp [hd, h]
  · simp [hd]

/-- **C45 (partial).** After removing any datasets, a request on a dataset that is still there finds
the same matches as before (both indexes). With sharing on this needs the condition `LogOK.link` on the
remaining datasets: no write to a remaining dataset repeats the selection of an earlier write of its
process to a removed one. Missing: that case, see `C45_unlink_violated`. -/
theorem C45_unlink_partial (cfg : Cfg) (dsets : DSets) (ps : List (List (AW × Int))) (q : RReq)
    (gone : Nat → Bool) (h : LogOK cfg dsets ps) (hl : cfg.share = true → Spec.SameSizes ps)
    (hc : cfg.share = true → Spec.NoRepeat ps) (hq : RequestOK dsets ps q) (hr : Records31 ps q)
    (hgone : gone q.did = false)
    (hlink : cfg.share = true → ∀ p ∈ ps, p.Pairwise (fun x y => Spec.SameSel x.1 y.1 →
      Spec.present (removeDsets gone dsets) y.1.did = true →
        Spec.present (removeDsets gone dsets) x.1.did = true)) :
    ∃ buf, metaOf cfg ps = .ok buf ∧
      (∃ es es' hs hs', parseL dsets cfg.share buf = .ok es ∧ searchL es q = .ok hs ∧
        parseL (removeDsets gone dsets) cfg.share buf = .ok es' ∧ searchL es' q = .ok hs' ∧
        hs.map Hit.noX = hs'.map Hit.noX) ∧
      (∃ es es' hs hs', parseC dsets cfg.share buf = .ok es ∧ searchC es q = .ok hs ∧
        parseC (removeDsets gone dsets) cfg.share buf = .ok es' ∧ searchC es' q = .ok hs' ∧
        hs.map Hit.noX = hs'.map Hit.noX) := by
  have h' : LogOK cfg (removeDsets gone dsets) ps :=
    ⟨h.recordable, fun p hp x hx => known_remove (h.known p hp x hx), h.len, h.mix, hlink⟩
  have hq' : RequestOK (removeDsets gone dsets) ps q :=
    ⟨by rw [removeDsets_get hgone]; exact hq.dset, hq.blk, hq.cnt, hq.src⟩
  obtain ⟨secs, h1, h2, h3, h4, h5, h6⟩ := log_sections h
  obtain ⟨secs', k1, k2, k3, k4, k5, k6⟩ := log_sections h'
  have lk : linked dsets q.did = true := linked_iff.mpr ⟨_, hq.dset⟩
  have lk' : linked (removeDsets gone dsets) q.did = true := linked_iff.mpr ⟨_, hq'.dset⟩
  have hbuf : (secs.map mbytes).flatten = (secs'.map mbytes).flatten := by
    rw [h1] at k1; injection k1
  have hits : hitsOf q secs.flatten = hitsOf q secs'.flatten := by
    have key : ∀ s : List (List (AW × WReq)), ps.flatten = s.flatten.map (fun x => (x.1, x.2.foff)) →
        (∀ x ∈ s.flatten, x.2.data = x.1.data) →
        hitsOf q s.flatten = (withOffs q.d.esize 0 q.bs).flatMap (fun p =>
          (ps.flatten.filter (fun x => decide (x.1.did = q.did))).flatMap (fun x =>
            (Spec.sels x.1.d.esize x.1.bs).flatMap (hitOf q p.1 p.2 x.2 x.1.data.length))) := by
      intro s hs hd
      rw [hs, List.filter_map]
      simp only [List.flatMap_map]
      unfold hitsOf
      congr 1
      funext p
      apply List.flatMap_congr
      intro x hx
      have := hd x (List.mem_of_mem_filter hx)
      simp [WReq.hdr, this]
    rw [key secs h2 (fun x hx => (h4 x hx).data), key secs' k2 (fun x hx => (k4 x hx).data)]
  refine ⟨_, h1, ?_, ?_⟩
  · obtain ⟨es, a1, a2⟩ := parseL_sections h3 (h5 hl)
    obtain ⟨es', b1, b2⟩ := parseL_sections k3 (k5 hl)
    obtain ⟨hs, c1, c2⟩ := searchL_ok (reqOK_of h2 h4 hq) a2
    obtain ⟨hs', d1, d2⟩ := searchL_ok (reqOK_of k2 k4 hq') b2
    refine ⟨es, es', hs, hs', a1, c1, by rw [hbuf]; exact b1, d1, ?_⟩
    rw [c2, d2, hitsOf_filter lk, hitsOf_filter lk', hits]
  · obtain ⟨es, a1, a2⟩ := parseC_sections h3 (h6 hc)
    obtain ⟨es', b1, b2⟩ := parseC_sections k3 (k6 hc)
    obtain ⟨hs, c1, c2⟩ := searchC_ok (reqOK_of h2 h4 hq)
      (creqOK_of h2 (fun x hx => (h4 x hx).rcd.sel.ne) hr) a2
    obtain ⟨hs', d1, d2⟩ := searchC_ok (reqOK_of k2 k4 hq')
      (creqOK_of k2 (fun x hx => (k4 x hx).rcd.sel.ne) hr) b2
    refine ⟨es, es', hs, hs', a1, c1, by rw [hbuf]; exact b1, d1, ?_⟩
    rw [c2, d2, hitsOf_filter lk, hitsOf_filter lk', hits]

/-! ### Witnesses: the code violates C06, C07 and C45 in general -/

section Witnesses

theorem not_confined {w : AW} (h : w.d.mdims.head? ≠ some none) : ¬ Spec.Confined w :=
  fun hc => h hc.1

/-- A dataset of 5 records of 3 one-byte elements. -/
def wR : AW := ⟨0, ⟨[5, 3], [none, some 3], 1⟩, [⟨[2, 0], [1, 3]⟩], [1, 2, 3]⟩
def wRlog : List (List (AW × Int)) := [[(wR, 100), (wR, 103)]]
def wRsets : DSets := [some wR.d]
def wRreq : RReq := ⟨0, wR.d, [⟨[0, 0], [5, 3]⟩], 1000⟩

theorem wR_recordable (o : Int) (h0 : 0 ≤ o) (h1 : o < 2 ^ 63) :
    Spec.Recordable ⟨true, true⟩ wR o := by
  refine ⟨⟨by decide, by decide, ?_⟩, ⟨by decide, by decide, by decide, h0, h1⟩, ?_⟩
  · intro b hb
    simp [wR] at hb
    subst hb
    constructor <;> decide
  · intro _ h; simp [wR] at h

theorem wR_logOK : LogOK ⟨true, true⟩ wRsets wRlog := by
  refine ⟨?_, ?_, ?_, ?_, ?_⟩
  · intro p hp x hx
    simp [wRlog] at hp; subst hp
    simp at hx
    rcases hx with rfl | rfl <;> exact wR_recordable _ (by decide) (by decide)
  · intro p hp x hx
    simp [wRlog] at hp; subst hp
    simp at hx
    rcases hx with rfl | rfl <;>
    · refine ⟨by decide, ?_⟩
      intro d hd
      simp [wRsets, wR] at hd
      subst hd
      decide
  · intro p hp
    simp [wRlog] at hp; subst hp
    decide
  · intro _ p hp
    simp [wRlog] at hp; subst hp
    intro _
    simp [wR]
  · intro _ p hp
    simp [wRlog] at hp; subst hp
    simp [wR, Spec.present, wRsets]

/-- **C06 is violated by the default configuration (compact index).** Writing the same record twice
with the same selection records the second write as a reference without record number; its index entry
does not denote any blocks (reading it leaves the coordinate array). -/
theorem C06_sharing_compact_violated :
    LogOK ⟨true, true⟩ wRsets wRlog ∧ Coords63 wRlog ∧
    ∃ buf es, metaOf ⟨true, true⟩ wRlog = .ok buf ∧ parseC wRsets true buf = .ok es ∧
      ∃ e ∈ es, Spec.compactSels wR.d e = .ub := by
  refine ⟨wR_logOK, ?_, _, [⟨0, 2, some (1, [0, 3]), 100, 3, 1⟩, ⟨0, -1, some (1, [0, 3]), 103, 3, 0⟩],
    rfl, by decide, ⟨0, -1, some (1, [0, 3]), 103, 3, 0⟩, by decide, by decide⟩
  intro p hp x hx b hb n hn
  simp [wRlog] at hp; subst hp
  simp at hx
  rcases hx with rfl | rfl <;>
  · simp [wR] at hb; subst hb
    simp at hn
    rcases hn with rfl | rfl <;> decide

/-- **C07 is violated.** On the same log the list index answers a request for the whole dataset and
the compact index leaves its coordinate array. -/
theorem C07_indexes_violated :
    LogOK ⟨true, true⟩ wRsets wRlog ∧ RequestOK wRsets wRlog wRreq ∧ Records31 wRlog wRreq ∧
    ∃ buf es cs, metaOf ⟨true, true⟩ wRlog = .ok buf ∧
      parseL wRsets true buf = .ok es ∧ parseC wRsets true buf = .ok cs ∧
      (∃ hs, searchL es wRreq = .ok hs ∧ hs.length = 2) ∧ searchC cs wRreq = .ub := by
  refine ⟨wR_logOK, ⟨rfl, by decide, by decide, ?_⟩, ⟨?_, ?_⟩, _,
    [⟨⟨52, 0, ⟨false, false, false, false, true⟩, 100, 3⟩, [⟨[2, 0], [1, 3], 0⟩], 1⟩,
     ⟨⟨36, 0, ⟨false, false, false, true, false⟩, 103, 3⟩, [⟨[2, 0], [1, 3], 0⟩], 3⟩],
    [⟨0, 2, some (1, [0, 3]), 100, 3, 1⟩, ⟨0, -1, some (1, [0, 3]), 103, 3, 0⟩],
    rfl, by decide, by decide,
    ⟨[⟨wR.d, [1, 3], [0, 0], [5, 3], [2, 0], [1, 3], 1, 0, 1000, 100, 3⟩,
      ⟨wR.d, [1, 3], [0, 0], [5, 3], [2, 0], [1, 3], 3, 0, 1000, 103, 3⟩], by decide, rfl⟩, by decide⟩
  · decide
  · intro p hp x hx b hb n hn
    simp [wRlog] at hp; subst hp
    simp at hx
    rcases hx with rfl | rfl <;>
    · simp [wR] at hb; subst hb
      simp at hn; subst hn; decide
  · intro b hb n hn
    simp [wRreq] at hb; subst hb
    simp at hn; subst hn; decide

/-- Two datasets of equal shape, elements of 1 and of 2 bytes; the same two blocks are written. -/
def wS0 : AW := ⟨0, ⟨[4, 6], [some 4, some 6], 1⟩, [⟨[0, 0], [1, 2]⟩, ⟨[2, 1], [1, 2]⟩], [1, 2, 3, 4]⟩
def wS1 : AW := ⟨1, ⟨[4, 6], [some 4, some 6], 2⟩, [⟨[0, 0], [1, 2]⟩, ⟨[2, 1], [1, 2]⟩],
  [1, 2, 3, 4, 5, 6, 7, 8]⟩
def wSlog : List (List (AW × Int)) := [[(wS0, 100), (wS1, 104)]]
def wSsets : DSets := [some wS0.d, some wS1.d]

theorem wS_logOK : LogOK ⟨true, true⟩ wSsets wSlog := by
  have hN : Spec.NonEmpty ⟨[0, 0], [1, 2]⟩ ∧ Spec.NonEmpty ⟨[2, 1], [1, 2]⟩ := by
    unfold Spec.NonEmpty; decide
  refine ⟨?_, ?_, ?_, ?_, ?_⟩
  · intro p hp x hx
    simp [wSlog] at hp; subst hp
    simp at hx
    rcases hx with rfl | rfl <;>
    · refine ⟨⟨by decide, by decide, ?_⟩, ⟨by decide, by decide, by decide, by decide, by decide⟩, ?_⟩
      · intro b hb
        simp [wS0, wS1] at hb
        rcases hb with rfl | rfl <;> constructor <;> decide
      · intro _ _
        refine Spec.Encodable.expressible ⟨?_, ?_, Or.inl ?_, by decide⟩
        · intro b hb
          simp [wS0, wS1] at hb
          rcases hb with rfl | rfl <;> simp [Spec.inExtent_cons, Spec.inExtent_nil, wS0, wS1]
        · intro b hb
          simp [wS0, wS1] at hb
          rcases hb with rfl | rfl
          · exact hN.1
          · exact hN.2
        · intro b hb
          simp [wS0, wS1] at hb
          rcases hb with rfl | rfl <;>
            simp [wS0, wS1, Spec.notFullWidth_cons, Spec.notFullWidth_zero_cons, Spec.notFullWidth_nil]
  · intro p hp x hx
    simp [wSlog] at hp; subst hp
    simp at hx
    rcases hx with rfl | rfl <;>
    · refine ⟨by decide, ?_⟩
      intro d hd
      simp [wSsets, wS0, wS1] at hd
      subst hd
      decide
  · intro p hp
    simp [wSlog] at hp; subst hp
    decide
  · intro _ p hp
    simp [wSlog] at hp; subst hp
    intro _
    simp only [List.map_cons, List.map_nil, List.pairwise_cons, List.mem_singleton, forall_eq,
      List.not_mem_nil, false_implies, implies_true, List.Pairwise.nil, and_true]
    intro _ _
    exact ⟨fun h => absurd h (not_confined (by decide)), fun h => absurd h (not_confined (by decide))⟩
  · intro _ p hp
    simp [wSlog] at hp; subst hp
    simp [wS0, wS1, Spec.present, wSsets]

/-- **C06 is violated (list index).** The second write is recorded as a reference; its second block is
located at byte 2 of its data instead of byte 4. -/
theorem C06_sharing_list_violated :
    LogOK ⟨true, true⟩ wSsets wSlog ∧
    ∃ buf es, metaOf ⟨true, true⟩ wSlog = .ok buf ∧ parseL wSsets true buf = .ok es ∧
      ∃ e ∈ es, e.hdr.did = 1 ∧ e.sels ≠ Spec.sels 2 wS1.bs := by
  refine ⟨wS_logOK, _,
    [⟨⟨72, 0, ⟨true, true, false, false, false⟩, 100, 4⟩, [⟨[0, 0], [1, 2], 0⟩, ⟨[2, 1], [1, 2], 2⟩], 4⟩,
     ⟨⟨36, 1, ⟨true, true, false, true, false⟩, 104, 8⟩, [⟨[0, 0], [1, 2], 0⟩, ⟨[2, 1], [1, 2], 2⟩], 6⟩],
    rfl, by decide, _, List.mem_cons_of_mem _ (List.mem_singleton_self _), rfl, by decide⟩

/-- Two blocks in one record, and two blocks of a two-dimensional dataset. -/
def wM0 : AW := ⟨0, ⟨[5, 6], [none, some 6], 1⟩, [⟨[2, 0], [1, 1]⟩, ⟨[2, 2], [1, 1]⟩], [1, 2]⟩
def wM1 : AW := ⟨1, ⟨[4, 8], [some 4, some 8], 1⟩, [⟨[0, 0], [1, 1]⟩, ⟨[1, 2], [1, 1]⟩], [3, 4]⟩

/-- **C06 is violated.** With the default configuration two valid writes make the comparison of
selections read past the end of a selection buffer. -/
theorem C06_sharing_compare_violated :
    Spec.Recordable ⟨true, true⟩ wM0 0 ∧ Spec.Recordable ⟨true, true⟩ wM1 0 ∧ Spec.Encodable wM0 ∧ Spec.Encodable wM1 ∧
    wM0.Exact ∧ wM1.Exact ∧ runWrites ⟨true, true⟩ [wM0, wM1] Rank.init = .ub := by
  have hN : Spec.NonEmpty ⟨[2, 0], [1, 1]⟩ ∧ Spec.NonEmpty ⟨[2, 2], [1, 1]⟩ ∧
      Spec.NonEmpty ⟨[0, 0], [1, 1]⟩ ∧ Spec.NonEmpty ⟨[1, 2], [1, 1]⟩ := by
    unfold Spec.NonEmpty; decide
  have hE0 : Spec.Encodable wM0 := by
    refine ⟨?_, ?_, Or.inl ?_, by decide⟩
    · intro b hb
      simp [wM0] at hb
      rcases hb with rfl | rfl <;> simp [Spec.inExtent_cons, Spec.inExtent_nil, wM0]
    · intro b hb
      simp [wM0] at hb
      rcases hb with rfl | rfl
      · exact hN.1
      · exact hN.2.1
    · intro b hb
      simp [wM0] at hb
      rcases hb with rfl | rfl <;>
        simp [wM0, Spec.notFullWidth_cons, Spec.notFullWidth_zero_cons, Spec.notFullWidth_nil]
  have hE1 : Spec.Encodable wM1 := by
    refine ⟨?_, ?_, Or.inl ?_, by decide⟩
    · intro b hb
      simp [wM1] at hb
      rcases hb with rfl | rfl <;> simp [Spec.inExtent_cons, Spec.inExtent_nil, wM1]
    · intro b hb
      simp [wM1] at hb
      rcases hb with rfl | rfl
      · exact hN.2.2.1
      · exact hN.2.2.2
    · intro b hb
      simp [wM1] at hb
      rcases hb with rfl | rfl <;>
        simp [wM1, Spec.notFullWidth_cons, Spec.notFullWidth_zero_cons, Spec.notFullWidth_nil]
  refine ⟨⟨⟨by decide, by decide, ?_⟩, ⟨by decide, by decide, by decide, by decide, by decide⟩, fun _ _ => hE0.expressible⟩,
    ⟨⟨by decide, by decide, ?_⟩, ⟨by decide, by decide, by decide, by decide, by decide⟩, fun _ _ => hE1.expressible⟩, hE0, hE1, rfl, rfl, by decide⟩
  · intro b hb
    simp [wM0] at hb
    rcases hb with rfl | rfl <;> constructor <;> decide
  · intro b hb
    simp [wM1] at hb
    rcases hb with rfl | rfl <;> constructor <;> decide

/-- **C45 is violated.** In the log of `wS0`, `wS1` the second write refers to the entry of the first.
When dataset 0 is removed, the list index cannot be built any more (undefined behaviour) and a request
on dataset 1 through the compact index dereferences a null pointer. -/
theorem C45_unlink_violated :
    LogOK ⟨true, true⟩ wSsets wSlog ∧
    ∃ buf cs, metaOf ⟨true, true⟩ wSlog = .ok buf ∧
      parseL (removeDsets (· == 0) wSsets) true buf = .ub ∧
      parseC (removeDsets (· == 0) wSsets) true buf = .ok cs ∧
      searchC cs ⟨1, wS1.d, [⟨[0, 0], [4, 6]⟩], 1000⟩ = .ub := by
  refine ⟨wS_logOK, _, [⟨1, -1, none, 104, 8, 0⟩], rfl, by decide, by decide, by decide⟩

/-! Non-vacuity of the partial theorems: the log of `wS0`, `wS1` meets the hypotheses of
`C06_sharing_compact_partial` (a shared selection), and a two-process log with records meets those of
`C07_indexes_partial` and `C45_unlink_partial`. -/

example : LogOK ⟨true, true⟩ wSsets wSlog ∧ Coords63 wSlog ∧ Spec.NoRepeat wSlog := by
  refine ⟨wS_logOK, ?_, ?_⟩
  · unfold Coords63; decide
  · intro p hp
    simp [wSlog] at hp; subst hp
    simp only [List.pairwise_cons, List.mem_singleton, forall_eq, List.not_mem_nil, false_implies,
      implies_true, List.Pairwise.nil, and_true]
    exact fun h => absurd h (not_confined (by decide))

/-- Process 0 writes the same two blocks of dataset 0 twice, process 1 writes records 2 and 4 of
dataset 1 with the same selection (all recorded as references the second time). -/
def wT : AW := ⟨1, ⟨[5, 3], [none, some 3], 1⟩, [⟨[2, 0], [1, 3]⟩], [1, 2, 3]⟩
def wT' : AW := ⟨1, ⟨[5, 3], [none, some 3], 1⟩, [⟨[4, 0], [1, 3]⟩], [4, 5, 6]⟩
def wTlog : List (List (AW × Int)) := [[(wS0, 100), (wS0, 104)], [(wT, 108), (wT', 111)]]
def wTsets : DSets := [some wS0.d, some wT.d]

theorem wS0_recordable (o : Int) (h0 : 0 ≤ o) (h1 : o < 2 ^ 63) :
    Spec.Recordable ⟨true, true⟩ wS0 o := by
  have h := wS_logOK.recordable _ (List.mem_singleton_self _) (wS0, 100) (by simp)
  exact ⟨h.sel, ⟨h.rep.did, h.rep.sz, h.rep.data, h0, h1⟩, h.enc⟩

theorem wT_logOK : LogOK ⟨true, true⟩ wTsets wTlog ∧ Spec.SameSizes wTlog ∧ Spec.NoRepeat wTlog := by
  refine ⟨⟨?_, ?_, ?_, ?_, ?_⟩, ?_, ?_⟩
  · intro p hp x hx
    simp [wTlog] at hp
    rcases hp with rfl | rfl
    · simp at hx
      rcases hx with rfl | rfl <;> exact wS0_recordable _ (by decide) (by decide)
    · simp at hx
      rcases hx with rfl | rfl <;>
      · refine ⟨⟨by decide, by decide, ?_⟩, ⟨by decide, by decide, by decide, by decide, by decide⟩, ?_⟩
        · intro b hb
          simp [wT, wT'] at hb
          subst hb
          constructor <;> decide
        · intro _ h; simp [wT, wT'] at h
  · intro p hp x hx
    simp [wTlog] at hp
    rcases hp with rfl | rfl <;> simp at hx <;> rcases hx with rfl | rfl <;>
    · refine ⟨by decide, ?_⟩
      intro d hd
      simp [wTsets, wS0, wT, wT'] at hd
      subst hd
      decide
  · intro p hp
    simp [wTlog] at hp
    rcases hp with rfl | rfl <;> decide
  · intro _ p hp
    simp [wTlog] at hp
    rcases hp with rfl | rfl
    · intro _; simp
    · intro _; simp [wT]
  · intro _ p hp
    simp [wTlog] at hp
    rcases hp with rfl | rfl <;> simp [wS0, wT, wT']
  · intro p hp
    simp [wTlog] at hp
    rcases hp with rfl | rfl <;> simp [wT, wT']
  · intro p hp
    simp [wTlog] at hp
    rcases hp with rfl | rfl
    · simp only [List.pairwise_cons, List.mem_singleton, forall_eq, List.not_mem_nil, false_implies,
        implies_true, List.Pairwise.nil, and_true]
      exact fun h => absurd h (not_confined (by decide))
    · simp [wT, wT']

example : RequestOK wTsets wTlog ⟨1, wT.d, [⟨[0, 0], [5, 3]⟩], 1000⟩ ∧
    Records31 wTlog ⟨1, wT.d, [⟨[0, 0], [5, 3]⟩], 1000⟩ := by
  refine ⟨⟨rfl, by decide, by decide, by decide⟩, ⟨?_, ?_⟩⟩
  · intro p hp x hx b hb n hn
    have : ∀ p ∈ wTlog, ∀ x ∈ p, ∀ b ∈ x.1.bs, ∀ n ∈ b.start, n < 2 ^ 31 := by decide
    exact this p hp x hx b hb n (List.mem_of_head? hn)
  · intro b hb n hn
    simp at hb; subst hb
    simp at hn; subst hn; decide

/-- C05 without sharing: the same log. -/
example : LogOK ⟨true, false⟩ wTsets wTlog ∧ Coords63 wTlog :=
  ⟨logOK_unshare wT_logOK.1, by unfold Coords63; decide⟩

example : (∃ x, InBlk ⟨[0, 1], [2, 3]⟩ x ∧ InBlk ⟨[1, 2], [4, 4]⟩ x) ∧
    intersect [0, 1] [2, 3] [1, 2] [4, 4] = some ([1, 2], [1, 2]) :=
  ⟨⟨[1, 2], by decide⟩, by decide⟩

end Witnesses

end Verif.Props
