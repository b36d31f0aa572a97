import Verif.Lemmas.ExactRead

namespace Verif

open Spec (AW AFile WriteOK Small Layout Stored Known ReqsWF Repeats ReadResult Viewable Reach Returns ReturnsIfOk Confined
  SameEntry Origin EachOrigin Legible SmallRecords Buildable Measured Served present)

section
variable {cfg : Cfg}

theorem present_linked (dsets : DSets) (did : Nat) : present dsets did = linked dsets did := rfl

theorem origin_of_orig {prev : List (AW × WReq)} {w : AW} {x : AW × WReq} (hp : ∀ y ∈ prev, AWF cfg y.1) (hw : AWF cfg w)
    (h : Orig cfg prev w x) : Origin cfg (prev.map (·.1)) x.1 w := by
  obtain ⟨p1, p2, e, hf, hs⟩ := h
  subst e
  refine ⟨p1.map (·.1), p2.map (·.1), by simp, (sameEntry_iff (hp x (by simp)) hw).mpr ⟨hs, hf.1⟩, ?_⟩
  intro z hz hse
  obtain ⟨y, hy, rfl⟩ := List.mem_map.mp hz
  exact hf.2 y hy ((sameEntry_iff (hp y (by simp [hy])) hw).mp hse).1

theorem orig_of_origin {prev : List (AW × WReq)} {w : AW} {v : AW} (hp : ∀ y ∈ prev, AWF cfg y.1) (hw : AWF cfg w)
    (h : Origin cfg (prev.map (·.1)) v w) : ∃ x, x.1 = v ∧ Orig cfg prev w x := by
  obtain ⟨p, q, e, hse, hno⟩ := h
  obtain ⟨p1, r, e1, h1, h2⟩ := List.map_eq_append_iff.mp e
  obtain ⟨x, p2, e2, h3, h4⟩ := List.map_eq_cons_iff.mp h2
  subst e2
  subst e1
  subst h3
  have hs := (sameEntry_iff (hp x (by simp)) hw).mp hse
  refine ⟨x, rfl, p1, p2, rfl, ⟨hs.2, ?_⟩, hs.1⟩
  intro y hy hsh
  exact hno y.1 (by rw [← h1]; exact List.mem_map_of_mem hy) ((sameEntry_iff (hp y (by simp [hy])) hw).mpr ⟨hsh, hs.2⟩)

theorem recs_iff {x w : AW} (hx : AWF cfg x) (hw : AWF cfg w) (hsw : Spec.SelOK w.d w.bs)
    (hs : Shares cfg x w) :
    (∃ n, recOf w.d w.bs = some n ∧ recOf x.d x.bs = some n) ↔ (Confined w ∧ x.bs = w.bs) := by
  constructor
  · rintro ⟨n, h1, h2⟩
    exact ⟨(recOf_isSome_iff hsw).mp (by rw [h1]; rfl), bs_eq_of_shares hx hw hs h2 h1⟩
  · rintro ⟨hc, hb⟩
    obtain ⟨n, hn⟩ := Option.isSome_iff_exists.mp ((recOf_isSome_iff hsw).mpr hc)
    have hr : recDims x.d x.bs = 1 := by
      rw [hs.2]; unfold recDims; rw [hn]; rfl
    obtain ⟨m, hm⟩ : ∃ m, recOf x.d x.bs = some m := by
      unfold recDims at hr
      cases h : recOf x.d x.bs with
      | none => rw [h] at hr; simp at hr
      | some m => exact ⟨m, rfl⟩
    obtain ⟨b, bs, e⟩ := List.exists_cons_of_ne_nil hsw.ne
    have e1 := ((recOf_some hn).2 b (by rw [e]; simp)).1
    have e2 := ((recOf_some hm).2 b (by rw [hb, e]; simp)).1
    rw [e1] at e2
    exact ⟨n, hn, by rw [hm]; exact e2.symm⟩

end

section
variable {cfg : Cfg} {g : Ghost} {st : FState} {a : AFile}

theorem Inv.secWF (h : Inv cfg g st a) : ∀ s ∈ g.mdx.flatten, SecWF cfg st.dsets s := by
  intro s hs
  obtain ⟨h1, h2, _⟩ := h.sec s hs
  have hm : ∀ x ∈ s, x ∈ g.mdx.flatten.flatten := fun x hx => List.mem_flatten.mpr ⟨s, hs, hx⟩
  exact secWF_of h1 (fun x hx => recordable_of (h.wokm x (hm x hx)).1 (h.foff x (hm x hx)).1 (h.foff x (hm x hx)).2)
    (fun x hx => (h.wokm x (hm x hx)).2) h2

theorem sublist_flatten_le {α : Type} {xs ys : List (List α)} (h : xs.Sublist ys) : xs.flatten.length ≤ ys.flatten.length := by
  induction h with
  | slnil => exact Nat.le_refl _
  | cons y _ ih => simp only [List.flatten_cons, List.length_append]; omega
  | cons_cons y _ ih => simp only [List.flatten_cons, List.length_append]; omega

theorem sublist_flatten_mem {α : Type} {xs ys : List (List α)} (h : xs.Sublist ys) (hl : xs.flatten = ys.flatten) :
    ∀ p ∈ ys, p ≠ [] → p ∈ xs := by
  have key : ∀ {xs ys : List (List α)}, xs.Sublist ys → ys.flatten.length ≤ xs.flatten.length →
      ∀ p ∈ ys, p ≠ [] → p ∈ xs := by
    intro xs ys h
    induction h with
    | slnil => intro _ p hp; simp at hp
    | @cons xs ys y hsub ih =>
      intro hl p hp hne
      have hle : xs.flatten.length ≤ ys.flatten.length := sublist_flatten_le hsub
      rw [List.flatten_cons, List.length_append] at hl
      rcases List.mem_cons.mp hp with rfl | hp
      · exact absurd (List.length_eq_zero_iff.mp (by omega)) hne
      · exact ih (by omega) p hp hne
    | @cons_cons xs ys y hsub ih =>
      intro hl p hp hne
      simp only [List.flatten_cons, List.length_append] at hl
      rcases List.mem_cons.mp hp with rfl | hp
      · simp
      · exact List.mem_cons_of_mem _ (ih (by omega) p hp hne)
  exact key h (by rw [hl]; exact Nat.le_refl _)

/-- The positions of the metadata of a file are those of the sections of its history. -/
theorem Inv.pos_secs (h : Inv cfg g st a) {P : List AW → AW → Prop} :
    (∀ p ∈ a.secs, ∀ prev y post, p = prev ++ y :: post → P prev y) ↔
    ∀ p ∈ posL g.mdx.flatten, P (p.1.map (·.1)) p.2.1 := by
  constructor
  · intro hP p hp
    obtain ⟨s, hs, post, e⟩ := mem_posL.mp hp
    exact hP _ (h.sec s hs).2.2 _ _ (post.map (·.1)) (by rw [e]; simp)
  · intro hP p hp prev y post e
    have hne : p ≠ [] := by rw [e]; simp
    have := sublist_flatten_mem h.ord.1 h.ord.2 p hp hne
    obtain ⟨s, hs, hse⟩ := List.mem_map.mp this
    rw [e] at hse
    obtain ⟨p1, r, e1, h1, h2⟩ := List.map_eq_append_iff.mp hse
    obtain ⟨x, p2, e2, h3, h4⟩ := List.map_eq_cons_iff.mp h2
    have := hP (p1, x) (mem_posL.mpr ⟨s, hs, p2, by rw [e1, e2]⟩)
    simp only at this
    rw [h1, h3] at this
    exact this

theorem Inv.pos_ok (h : Inv cfg g st a) {p : Pos} (hp : p ∈ posL g.mdx.flatten) :
    (∀ y ∈ p.1, AWF cfg y.1 ∧ Spec.SelOK y.1.d y.1.bs) ∧ AWF cfg p.2.1 ∧ Spec.SelOK p.2.1.d p.2.1.bs ∧
      p.2 ∈ g.mdx.flatten.flatten := by
  obtain ⟨s, hs, post, e⟩ := mem_posL.mp hp
  have hm : ∀ x ∈ s, x ∈ g.mdx.flatten.flatten := fun x hx => List.mem_flatten.mpr ⟨s, hs, hx⟩
  have hw := (h.secWF s hs).wf
  refine ⟨fun y hy => ?_, hw _ (by rw [e]; simp), (h.wokm _ (hm _ (by rw [e]; simp))).1.sel, hm _ (by rw [e]; simp)⟩
  have hys : y ∈ s := by rw [e]; simp [hy]
  exact ⟨hw y hys, (h.wokm y (hm y hys)).1.sel⟩

theorem Inv.fineC_iff (h : Inv cfg g st a) {p : Pos} (hp : p ∈ posL g.mdx.flatten) :
    FineC cfg st.dsets p.1 p.2.1 ↔ (cfg.share = true → ∀ x, Origin cfg (p.1.map (·.1)) x p.2.1 →
      present a.dsets x.did = true ∧ ¬ (Confined p.2.1 ∧ x.bs = p.2.1.bs)) := by
  obtain ⟨h1, h2, h3, _⟩ := h.pos_ok hp
  constructor
  · intro hf hsh v hv
    obtain ⟨x, rfl, ho⟩ := orig_of_origin (fun y hy => (h1 y hy).1) h2 hv
    obtain ⟨f1, f2⟩ := hf hsh x ho
    refine ⟨by rw [present_linked, ← h.dsets]; exact f1, fun hc => ?_⟩
    have hx := h1 x ho.mem
    obtain ⟨n, n1, n2⟩ := (recs_iff hx.1 h2 h3 ho.shares).mpr hc
    exact f2 n n1 n2
  · intro hf hsh x ho
    obtain ⟨f1, f2⟩ := hf hsh x.1 (origin_of_orig (fun y hy => (h1 y hy).1) h2 ho)
    rw [present_linked, ← h.dsets] at f1
    have hx := h1 x ho.mem
    exact ⟨f1, fun n n1 n2 => f2 ((recs_iff hx.1 h2 h3 ho.shares).mp ⟨n, n1, n2⟩)⟩

theorem Inv.fineL_of (h : Inv cfg g st a) {p : Pos} (hp : p ∈ posL g.mdx.flatten)
    (hf : cfg.share = true → ∀ x, Origin cfg (p.1.map (·.1)) x p.2.1 → x.d.esize = p.2.1.d.esize ∨ p.2.1.bs.length = 1) :
    FineL cfg p.1 p.2.1 := by
  obtain ⟨h1, h2, h3, _⟩ := h.pos_ok hp
  intro hsh x ho
  exact hf hsh x.1 (origin_of_orig (fun y hy => (h1 y hy).1) h2 ho)

theorem Inv.linkBad_iff (h : Inv cfg g st a) {p : Pos} (hp : p ∈ posL g.mdx.flatten) :
    ¬ LinkBad cfg st.dsets p.1 p.2.1 ↔ (present a.dsets p.2.1.did = true → cfg.share = true →
      ∀ x, Origin cfg (p.1.map (·.1)) x p.2.1 → present a.dsets x.did = true) := by
  obtain ⟨h1, h2, h3, _⟩ := h.pos_ok hp
  simp only [present_linked, ← h.dsets]
  constructor
  · intro hn hl hsh v hv
    obtain ⟨x, rfl, ho⟩ := orig_of_origin (fun y hy => (h1 y hy).1) h2 hv
    by_contra hc
    exact hn ⟨hsh, hl, x, ho, by simpa using hc⟩
  · rintro hf ⟨hsh, hl, x, ho, hx⟩
    have := hf hl hsh x.1 (origin_of_orig (fun y hy => (h1 y hy).1) h2 ho)
    rw [hx] at this
    simp at this

theorem Inv.buildable (h : Inv cfg g st a) :
    Buildable cfg a ↔ ∀ p ∈ posL g.mdx.flatten, ¬ LinkBad cfg st.dsets p.1 p.2.1 := by
  have := h.pos_secs (P := fun prev y => present a.dsets y.did = true → cfg.share = true →
    ∀ x, Origin cfg prev x y → present a.dsets x.did = true)
  constructor
  · intro hb p hp
    rw [h.linkBad_iff hp]
    exact this.mp (fun p hp prev y post e hl hsh x ho => hb y.did hl hsh p hp prev y post e rfl x ho) p hp
  · intro hn did hl hsh p hp prev y post e hd x ho
    exact this.mpr (fun p hp => (h.linkBad_iff hp).mp (hn p hp)) p hp prev y post e (by rw [hd]; exact hl) hsh x ho

theorem Inv.legible (h : Inv cfg g st a) {did : Nat} :
    Legible cfg a did ↔ ∀ p ∈ posL g.mdx.flatten, p.2.1.did = did → FineC cfg st.dsets p.1 p.2.1 := by
  have := h.pos_secs (P := fun prev y => y.did = did → cfg.share = true → ∀ x, Origin cfg prev x y →
    present a.dsets x.did = true ∧ ¬ (Confined y ∧ x.bs = y.bs))
  constructor
  · intro hb p hp hd
    rw [h.fineC_iff hp]
    exact this.mp (fun p hp prev y post e hd hsh x ho => hb hsh p hp prev y post e hd x ho) p hp hd
  · intro hn hsh p hp prev y post e hd x ho
    exact this.mpr (fun p hp hd => (h.fineC_iff hp).mp (hn p hp hd)) p hp prev y post e hd hsh x ho

theorem Inv.measured (h : Inv cfg g st a) {did : Nat} (hm : Measured cfg a did) :
    ∀ p ∈ posL g.mdx.flatten, p.2.1.did = did → FineL cfg p.1 p.2.1 := by
  have := h.pos_secs (P := fun prev y => y.did = did → cfg.share = true → ∀ x, Origin cfg prev x y →
    x.d.esize = y.d.esize ∨ y.bs.length = 1)
  intro p hp hd
  exact h.fineL_of hp (this.mp (fun p hp prev y post e hd hsh x ho => hm hsh p hp prev y post e hd x ho) p hp hd)

theorem Inv.qokx (h : Inv cfg g st a) {qs : List RReq} (hq : ReqsWF st.compact a.dsets qs) {q : RReq} (hqm : q ∈ qs)
    (hs : st.compact = true → SmallRecords a q.did) : QOK st.compact st.dsets q g.mdx.flatten.flatten := by
  have hd := hq.dset q hqm
  rw [← h.dsets] at hd
  refine ⟨?_, ⟨?_, ?_, ?_, ?_, ?_⟩, ?_, ?_⟩
  · unfold linked; rw [hd]
  · intro x hx
    have := (h.hdrs x hx).1
    simp [WReq.hdr, this]
  · intro x hx he
    rw [← he] at hd
    exact (h.wokm x hx).2.2 q.d hd
  · exact fun x hx => (h.wokm x hx).1.sel
  · exact fun x hx b hb n hn => (h.wokm x hx).1.cnt b hb n hn
  · intro b hb
    have := hq.shape q hqm b hb
    exact ⟨this.1, this.2, fun n hn => hq.cnt q hqm b hb n hn⟩
  · intro hc
    refine ⟨?_, fun b hb n hn => hq.head hc q hqm b hb n hn⟩
    intro x hx hxd n hn
    obtain ⟨s, hsm, hxs⟩ := List.mem_flatten.mp hx
    have hsel := (h.wokm x hx).1.sel
    obtain ⟨b, bs, hb⟩ := List.exists_cons_of_ne_nil hsel.ne
    have h0 := ((recOf_some hn).2 b (by rw [hb]; simp)).1
    exact hs hc _ (h.sec s hsm).2.2 x.1 (List.mem_map_of_mem hxs) hxd ((recOf_isSome_iff hsel).mp (by rw [hn]; rfl)) b
      (by rw [hb]; simp) n h0
  · intro x hx
    refine ⟨rfl, ?_⟩
    have := (h.hdrs x hx).2
    simp [WReq.hdr, this]

theorem search_nil (ix : Idx) {q : RReq} (hb : q.bs = []) : ix.search q = .ok [] := by
  cases ix <;> simp [Idx.search, searchL, searchC, hb, withOffs, flatMapRes]

theorem hitsReq_nil {q : RReq} (hb : q.bs = []) (ls : List (AW × Int)) : hitsReq q ls = [] := by
  unfold hitsReq
  rw [hb]; rfl

theorem Inv.served_idx (h : Inv cfg g st a) {qs : List RReq} (hq : ReqsWF st.compact a.dsets qs)
    (hv : Served cfg st.compact a qs) {secs : List (List (AW × WReq))} (hsub : ∀ s ∈ secs, s ∈ g.mdx.flatten) {ix : Idx}
    (hi : IdxX cfg st.compact st.dsets (posL secs) ix) :
    ∀ q ∈ qs, ∃ hs, ix.search q = .ok hs ∧ hs.map Hit.noX = hitsReq q (secs.flatten.map loc) := by
  intro q hqm
  by_cases hb : q.bs = []
  · exact ⟨[], search_nil ix hb, by rw [hitsReq_nil hb]; rfl⟩
  · have hps : ∀ p ∈ posL secs, p ∈ posL g.mdx.flatten := by
      intro p hp
      obtain ⟨s, hs, post, e⟩ := mem_posL.mp hp
      exact mem_posL.mpr ⟨s, hsub s hs, post, e⟩
    have hqok : QOK st.compact st.dsets q ((posL secs).map (·.2)) := by
      refine (h.qokx hq hqm (fun hc => hv.recs hc q hqm hb)).sub ?_
      rw [posL_map]
      intro x hx
      obtain ⟨s, hs, hxs⟩ := List.mem_flatten.mp hx
      exact List.mem_flatten.mpr ⟨s, hsub s hs, hxs⟩
    have := search_exact hi hqok (fun p hp hd =>
      ⟨fun hc => h.legible.mp (hv.leg hc q hqm hb) p (hps p hp) hd,
        fun hc => h.measured (hv.meas hc q hqm hb) p (hps p hp) hd⟩)
    rw [posL_map] at this
    exact this

theorem Inv.noIdx (h : Inv cfg g st a) (hb : st.compact = false → Buildable cfg a)
    {secs : List (List (AW × WReq))} (hsub : ∀ s ∈ secs, s ∈ g.mdx.flatten) :
    ¬ NoIdx cfg st.compact st.dsets (posL secs) := by
  rintro ⟨hc, p, hp, hl⟩
  obtain ⟨s, hs, post, e⟩ := mem_posL.mp hp
  exact h.buildable.mp (hb hc) p (mem_posL.mpr ⟨s, hsub s hs, post, e⟩) hl

/-- The index search finds the blocks of the log. -/
theorem search_served (h : Inv cfg g st a) {qs : List RReq} (hq : ReqsWF st.compact a.dsets qs)
    (hv : Served cfg st.compact a qs) {r : Nat} (hr : r < a.queue.length) (he : a.epoch.flatten = [])
    (hm : st.mbuf = none ∨ a.done ≠ []) {fuel : Nat} (hf : g.mdx.flatten.length ≤ fuel) :
    ∃ raw st', st.search fuel r qs = .ok (raw, st') ∧
      (raw.map Hit.noX).Perm (qs.flatMap (fun q => hitsReq q g.ls)) := by
  have hperm : (qs.flatMap (fun q => hitsReq q (g.mdx.flatten.flatten.map loc))).Perm
      (qs.flatMap (fun q => hitsReq q g.ls)) := by
    apply List.Perm.flatMap_left
    intro q _
    apply hitsReq_perm
    have := h.perm
    rw [h.fl_nil he, List.append_nil] at this
    exact this.symm
  unfold FState.search
  cases hb : st.mbuf with
  | none =>
    simp only
    have hrl : r < st.idx.length := by rw [h.idxl, h.np]; exact hr
    obtain ⟨ix0, l1, l2⟩ := (loadAll_exact (cfg := cfg) h.md h.secWF (idxX_empty cfg st.compact st.dsets)).2
      (h.noIdx hv.build (fun s hs => hs))
    rw [← h.cfgEq] at l1
    rw [List.nil_append] at l2
    obtain ⟨hs, s1, s2⟩ := flatMapRes_ok (f := ix0.search) (π := Hit.noX)
      (g := fun q => hitsReq q (g.mdx.flatten.flatten.map loc)) (l := qs) (h.served_idx hq hv (fun s hs => hs) l2)
    rw [List.getElem?_eq_getElem hrl]
    simp only
    refine ⟨hs, { st with idx := st.idx.set r (some ix0) }, ?_, by rw [s2]; exact hperm⟩
    cases hx : st.idx[r] with
    | some ix =>
      have := h.cache r ix (by rw [List.getElem?_eq_getElem hrl, hx])
      rw [l1] at this
      simp only [Res.ok.injEq] at this
      subst this
      simp only [Res.ok_bind, hb]
      rw [s1]; rfl
    | none =>
      simp only
      rw [l1]
      simp only [Res.ok_bind, hb]
      rw [s1]; rfl
  | some lim =>
    simp only
    have hd : a.done ≠ [] := by
      rcases hm with hm | hm
      · rw [hm] at hb; simp at hb
      · exact hm
    cases hmd : g.mdx with
    | nil =>
      exfalso
      apply hd
      have := h.perm
      rw [h.fl_nil he, hmd] at this
      simp only [List.flatten_nil, List.append_nil, List.map_nil, List.perm_nil] at this
      rw [← h.done, this]; rfl
    | cons secs mdx' =>
      have h0 : g.mdx[0]? = some secs := by rw [hmd]; rfl
      have hpos : 0 < secs.length := by
        have h1 := h.md
        rw [hmd] at h1
        obtain ⟨e, es, h2, _, _⟩ := List.forall₂_cons_right_iff.mp h1
        exact h2.pos
      have hrest : restFrom g.mdx 0 0 = g.mdx.flatten := by
        rw [hmd]; simp [restFrom]
      obtain ⟨raw, r1, r2⟩ := loadLoop_gen (lim := lim) (qs := qs) h.md (fun ss hss => by
          obtain ⟨ix, i1, i2⟩ := (parse_exact (idxX_empty cfg st.compact st.dsets) (fun s hs => h.secWF s (hss s hs))).2
            (h.noIdx hv.build hss)
          rw [← h.cfgEq] at i1
          exact ⟨ix, i1, h.served_idx hq hv hss i2⟩) h.small fuel 0 0 secs
        h0 hpos (by rw [hrest]; exact hf)
      refine ⟨raw, st, ?_, ?_⟩
      · rw [r1]; rfl
      · rw [hrest] at r2
        exact r2.trans hperm

/-- A request the index does not serve. -/
def Unserved (cfg : Cfg) (compact : Bool) (a : AFile) (qs : List RReq) : Prop :=
  (compact = false ∧ ¬ Buildable cfg a) ∨ (compact = true ∧ ∃ q ∈ qs, q.bs ≠ [] ∧ ¬ Legible cfg a q.did)

theorem search_unserved (h : Inv cfg g st a) {qs : List RReq} (hd : ∀ q ∈ qs, a.dsets[q.did]? = some (some q.d))
    (hu : Unserved cfg st.compact a qs) (fuel r : Nat) : st.search fuel r qs = .ub := by
  let B : Pos → Prop := fun p => p ∈ posL g.mdx.flatten ∧ ((st.compact = false ∧ LinkBad cfg st.dsets p.1 p.2.1) ∨
    (st.compact = true ∧ ∃ q ∈ qs, q.bs ≠ [] ∧ p.2.1.did = q.did ∧ ¬ FineC cfg st.dsets p.1 p.2.1))
  have hB : ∃ p ∈ posL g.mdx.flatten, B p := by
    rcases hu with ⟨hc, hb⟩ | ⟨hc, q, hqm, hqb, hl⟩
    · rw [h.buildable] at hb
      by_contra hn
      exact hb (fun p hp hl => hn ⟨p, hp, hp, Or.inl ⟨hc, hl⟩⟩)
    · rw [h.legible] at hl
      by_contra hn
      exact hl (fun p hp hd => by
        by_contra hf
        exact hn ⟨p, hp, hp, Or.inr ⟨hc, q, hqm, hqb, hd, hf⟩⟩)
  have noerr : ∀ ix : Idx, flatMapRes ix.search qs ≠ .err := fun ix => flatMapRes_noerr (fun q _ => search_noerr ix q)
  have key : ∀ {ps : List Pos} {ix : Idx}, IdxX cfg st.compact st.dsets ps ix →
      ¬ NoIdx cfg st.compact st.dsets ps → (∃ p ∈ ps, B p) → flatMapRes ix.search qs = .ub := by
    rintro ps ix hi hn ⟨p, hp, hpg, hpb⟩
    rcases hpb with ⟨hc, hl⟩ | ⟨hc, q, hqm, hqb, hpd, hf⟩
    · exact absurd ⟨hc, p, hp, hl⟩ hn
    · refine flatMapRes_ub (fun q _ => search_noerr ix q) hqm ?_
      obtain ⟨_, _, h3, h4⟩ := h.pos_ok hpg
      have hdq := hd q hqm
      rw [← h.dsets] at hdq
      rw [hc] at hi
      refine search_ub hi hqb hp hpd ?_ ?_ h3 ?_ hf
      · have := (h.hdrs p.2 h4).1
        simp [WReq.hdr, this]
      · unfold linked; rw [hdq]
      · rw [← hpd] at hdq
        exact (h.wokm p.2 h4).2.2 q.d hdq
  unfold FState.search
  cases hb : st.mbuf with
  | none =>
    simp only
    obtain ⟨l1, l2⟩ := loadAll_exact (cfg := cfg) h.md h.secWF (idxX_empty cfg st.compact st.dsets)
    rw [← h.cfgEq] at l1 l2
    rw [List.nil_append] at l2
    cases hx : st.idx[r]? with
    | none => rfl
    | some o =>
      by_cases hn : NoIdx st.cfg st.compact st.dsets (posL g.mdx.flatten)
      · cases o with
        | none => simp only; rw [l1 hn]; rfl
        | some ix =>
          have := h.cache r ix hx
          rw [l1 hn] at this
          simp at this
      · obtain ⟨ix, i1, i2⟩ := l2 hn
        rw [h.cfgEq] at i2 hn
        cases o with
        | none =>
          simp only
          rw [i1]
          simp only [Res.ok_bind]
          rw [key i2 hn hB]
          rfl
        | some ix' =>
          have := h.cache r ix' hx
          rw [i1] at this
          simp only [Res.ok.injEq] at this
          subst this
          simp only [Res.ok_bind]
          rw [key i2 hn hB]
          rfl
  | some lim =>
    simp only
    have hne : g.mdx ≠ [] := by
      intro hn
      obtain ⟨p, hp, _⟩ := hB
      rw [hn] at hp
      simp [posL] at hp
    obtain ⟨secs, mdx', hmd⟩ := List.exists_cons_of_ne_nil hne
    have h0 : g.mdx[0]? = some secs := by rw [hmd]; rfl
    have hpos : 0 < secs.length := by
      have h1 := h.md
      rw [hmd] at h1
      obtain ⟨e, es, h2, _, _⟩ := List.forall₂_cons_right_iff.mp h1
      exact h2.pos
    have hrest : restFrom g.mdx 0 0 = g.mdx.flatten := by
      rw [hmd]; simp [restFrom]
    rw [loadLoop_ub (lim := lim) (qs := qs) h.md B (fun ss hss => by
      obtain ⟨p1, p2⟩ := parse_exact (idxX_empty cfg st.compact st.dsets) (fun s hs => h.secWF s (hss s hs))
      rw [← h.cfgEq] at p1 p2
      by_cases hn : NoIdx st.cfg st.compact st.dsets (posL ss)
      · rw [p1 hn]
        exact ⟨by simp, fun _ => rfl⟩
      · obtain ⟨ix, i1, i2⟩ := p2 hn
        rw [i1]
        simp only [Res.ok_bind]
        rw [List.nil_append] at i2
        rw [h.cfgEq] at i2 hn
        exact ⟨noerr ix, key i2 hn⟩) h.small fuel 0 0 secs h0 hpos (by rw [hrest]; exact hB)]
    rfl

end

/-! ### Histories -/

variable {cfg : Cfg} {st : FState} {a : AFile}

theorem read_file {g : Ghost} (h : Inv cfg g st a) {qs : List RReq}
    (hi : Served cfg st.compact a qs) (hq : ReqsWF st.compact a.dsets qs) {r : Nat} (hr : r < a.queue.length)
    (he : a.epoch.flatten = []) (hm : st.mbuf = none ∨ a.done ≠ []) {fuel : Nat} (hf : g.mdx.flatten.length ≤ fuel)
    {fill : Nat → Option (List Byte)} {mem : Mem} :
    (Viewable qs → ∃ mem', st.reads fuel r fill qs mem (.ok mem')) ∧
    (Viewable qs → ∀ out, st.reads fuel r fill qs mem out → ∃ mem', out = .ok mem') ∧
    (Repeats a.done qs → ∀ mem', st.reads fuel r fill qs mem (.ok mem') → ReadResult a.done fill qs mem mem') :=
  read_found h hq he (search_served h hq hi hr he hm hf)

theorem reach_unserved (h : Reach cfg st a) {qs : List RReq} (hd : ∀ q ∈ qs, a.dsets[q.did]? = some (some q.d))
    (hu : Unserved cfg st.compact a qs) (fuel r : Nat) (fill : Nat → Option (List Byte)) (mem : Mem) (out : Res Mem) :
    st.reads fuel r fill qs mem out ↔ out = .ub := by
  obtain ⟨g, inv⟩ := reach_inv h
  have hs := search_unserved inv hd hu fuel r
  unfold FState.reads
  rw [hs]
  simp

end Verif
