import Verif.Lemmas.FileMeta
import Verif.Lemmas.SecMap

namespace Verif

open Spec (AW AFile WriteOK MayWrite Fresh Small Layout Stored Known)

/-! ### Loading the index -/

/-- A section that the index in use can parse. -/
structure Good (cfg : Cfg) (compact : Bool) (dsets : DSets) (xs : List (AW × WReq)) : Prop where
  sec : SecOK cfg dsets xs
  lst : compact = false → ListShare cfg xs
  cmp : compact = true → CompactShare cfg xs

/-- The index holds the entries of the given writes to datasets that are present. -/
def IdxOK (compact : Bool) (dsets : DSets) (xs : List (AW × WReq)) : Idx → Prop
  | .list es => compact = false ∧ List.Forall₂ EntOK (xs.filter (fun x => linked dsets x.1.did)) es
  | .comp es => compact = true ∧ List.Forall₂ CEntOK (xs.filter (fun x => linked dsets x.1.did)) es

theorem idxOK_empty (compact : Bool) (dsets : DSets) : IdxOK compact dsets [] (Idx.empty compact) := by
  cases compact <;> exact ⟨rfl, List.Forall₂.nil⟩

theorem parse_good {cfg : Cfg} {compact : Bool} {dsets : DSets} {xs : List (AW × WReq)} {ix : Idx}
    (h : IdxOK compact dsets xs ix) {secs : List (List (AW × WReq))}
    (hg : ∀ s ∈ secs, Good cfg compact dsets s) :
    ∃ ix', ix.parse dsets cfg.share ((secs.map mbytes).flatten) = .ok ix' ∧
      IdxOK compact dsets (xs ++ secs.flatten) ix' := by
  cases ix with
  | list es =>
    obtain ⟨es', h1, h2⟩ := parseL_sections (fun s hs => (hg s hs).sec) (fun s hs => (hg s hs).lst h.1)
    refine ⟨.list (es ++ es'), ?_, h.1, ?_⟩
    · simp only [Idx.parse]; rw [h1]; rfl
    · rw [List.filter_append]
      exact List.rel_append h.2 h2
  | comp es =>
    obtain ⟨es', h1, h2⟩ := parseC_sections (fun s hs => (hg s hs).sec) (fun s hs => (hg s hs).cmp h.1)
    refine ⟨.comp (es ++ es'), ?_, h.1, ?_⟩
    · simp only [Idx.parse]; rw [h1]; rfl
    · rw [List.filter_append]
      exact List.rel_append h.2 h2

theorem MdOK.size {disk : Mem} {e : Ext} {secs : List (List (AW × WReq))} (h : MdOK disk e secs) :
    e.size = 8 * (secs.length + 1) + (secs.map msize).sum := by
  rw [← mdContent_length, ← h.bytes, fileBytes_length]

theorem MdOK.read {disk : Mem} {e : Ext} {secs : List (List (AW × WReq))} (h : MdOK disk e secs)
    {pre mid post : List Byte} (hc : mdContent secs = pre ++ mid ++ post) {off n : Nat}
    (ho : off = pre.length) (hn : n = mid.length) : e.read disk off n = .ok mid := by
  have hl := congrArg List.length hc
  rw [mdContent_length, List.length_append, List.length_append] at hl
  unfold Ext.read
  subst ho hn
  rw [if_pos (by rw [h.size]; omega), fileBytes_sub (h.bytes.trans hc)]

theorem MdOK.nsec {disk : Mem} {e : Ext} {secs : List (List (AW × WReq))} (h : MdOK disk e secs) :
    e.read disk 0 8 = .ok (leN 8 secs.length) ∧ unle (leN 8 secs.length) = secs.length := by
  constructor
  · refine h.read (pre := []) (post := putWords (inscan (8 * (secs.length + 1)) (secs.map msize)) ++
      (secs.map mbytes).flatten) ?_ (by simp) (by simp)
    simp [mdContent, putWords]
  · have := h.num
    exact unle_leN_of_lt (Nat.lt_of_lt_of_le this (by decide))

theorem MdOK.body {disk : Mem} {e : Ext} {secs : List (List (AW × WReq))} (h : MdOK disk e secs) :
    e.body disk = .ok ((secs.map mbytes).flatten) := by
  unfold Ext.body
  rw [h.nsec.1]
  simp only [Res.ok_bind, h.nsec.2]
  have hs := h.size
  rw [if_neg (by omega)]
  refine h.read (pre := putWords (secs.length :: inscan (8 * (secs.length + 1)) (secs.map msize)))
    (post := []) (by simp [mdContent]) ?_ ?_
  · simp only [putWords_length, List.length_cons, inscan_length, List.length_map]
  · have := mdContent_length secs
    simp only [mdContent, List.length_append, putWords_length, List.length_cons, inscan_length,
      List.length_map] at this
    omega

theorem loadAll_good {cfg : Cfg} {compact : Bool} {dsets : DSets} {disk : Mem} {mds : List Ext}
    {mdx : List (List (List (AW × WReq)))} (hm : List.Forall₂ (MdOK disk) mds mdx)
    (hg : ∀ s ∈ mdx.flatten, Good cfg compact dsets s) : ∀ {xs : List (AW × WReq)} {ix : Idx},
    IdxOK compact dsets xs ix →
    ∃ ix', loadAll dsets cfg.share disk mds ix = .ok ix' ∧
      IdxOK compact dsets (xs ++ mdx.flatten.flatten) ix' := by
  induction hm with
  | nil => intro xs ix h; exact ⟨ix, rfl, by simpa using h⟩
  | @cons e secs mds mdx h1 _ ih =>
    intro xs ix h
    obtain ⟨ix1, p1, p2⟩ := parse_good h (secs := secs) (fun s hs => hg s (by simp [hs]))
    obtain ⟨ix2, q1, q2⟩ := ih (fun s hs => hg s (by
      rw [List.flatten_cons, List.mem_append]; exact Or.inr hs)) p2
    refine ⟨ix2, ?_, ?_⟩
    · unfold loadAll
      rw [h1.body]
      simp only [Res.ok_bind, p1]
      exact q1
    · simpa [List.append_assoc] using q2

/-! ### Searching -/

theorem hitsOf_loc {q : RReq} {xs : List (AW × WReq)}
    (h : ∀ x ∈ xs, x.2.hdr.foff = x.2.foff ∧ x.2.hdr.fsize = (x.1.data.length : Int)) :
    hitsOf q xs = hitsReq q (xs.map loc) := by
  unfold hitsOf hitsReq hitsBlk
  apply List.flatMap_congr
  intro p _
  rw [List.filter_map, List.flatMap_map]
  have : xs.filter ((fun x : AW × Int => decide (x.1.did = q.did)) ∘ loc) =
      xs.filter (fun x => decide (x.1.did = q.did)) := rfl
  rw [this]
  apply List.flatMap_congr
  intro x hx
  obtain ⟨h1, h2⟩ := h x (List.mem_of_mem_filter hx)
  rw [h1, h2]; rfl

theorem hitsOf_linked {dsets : DSets} {q : RReq} {xs : List (AW × WReq)}
    (h : linked dsets q.did = true) :
    hitsOf q (xs.filter (fun x => linked dsets x.1.did)) = hitsOf q xs := by
  unfold hitsOf
  rw [List.filter_filter]
  congr 1
  funext p
  congr 1
  apply List.filter_congr
  intro x _
  by_cases hd : x.1.did = q.did
  · simp [hd, h]
  · simp [hd]

/-- A request and the writes of the log fit together. -/
structure QOK (compact : Bool) (dsets : DSets) (q : RReq) (xs : List (AW × WReq)) : Prop where
  lk : linked dsets q.did = true
  req : ReqOK q xs
  creq : compact = true → CReqOK q xs
  hdr : ∀ x ∈ xs, x.2.hdr.foff = x.2.foff ∧ x.2.hdr.fsize = (x.1.data.length : Int)

theorem ReqOK.sub {q : RReq} {xs ys : List (AW × WReq)} (h : ReqOK q xs) (hs : ∀ x ∈ ys, x ∈ xs) : ReqOK q ys :=
  ⟨fun x hx => h.did x (hs x hx), fun x hx => h.same x (hs x hx), fun x hx => h.sel x (hs x hx),
    fun x hx => h.fit x (hs x hx), h.tgt⟩

theorem CReqOK.sub {q : RReq} {xs ys : List (AW × WReq)} (h : CReqOK q xs) (hs : ∀ x ∈ ys, x ∈ xs) :
    CReqOK q ys := ⟨fun x hx => h.recs x (hs x hx), h.tgt⟩

theorem QOK.sub {compact : Bool} {dsets : DSets} {q : RReq} {xs ys : List (AW × WReq)}
    (h : QOK compact dsets q xs) (hs : ∀ x ∈ ys, x ∈ xs) : QOK compact dsets q ys :=
  ⟨h.lk, h.req.sub hs, fun hc => (h.creq hc).sub hs, fun x hx => h.hdr x (hs x hx)⟩

theorem search_good {compact : Bool} {dsets : DSets} {q : RReq} {xs : List (AW × WReq)} {ix : Idx}
    (hi : IdxOK compact dsets xs ix) (hq : QOK compact dsets q xs) :
    ∃ hs, ix.search q = .ok hs ∧ hs.map Hit.noX = hitsReq q (xs.map loc) := by
  have hsub : ∀ x ∈ xs.filter (fun x => linked dsets x.1.did), x ∈ xs :=
    fun x hx => List.mem_of_mem_filter hx
  cases ix with
  | list es =>
    obtain ⟨hs, h1, h2⟩ := searchL_ok (hq.req.sub hsub) hi.2
    refine ⟨hs, h1, ?_⟩
    rw [h2, hitsOf_linked hq.lk, hitsOf_loc hq.hdr]
  | comp es =>
    obtain ⟨hs, h1, h2⟩ := searchC_ok (hq.req.sub hsub) ((hq.creq hi.1).sub hsub) hi.2
    refine ⟨hs, h1, ?_⟩
    rw [h2, hitsOf_linked hq.lk, hitsOf_loc hq.hdr]

/-! ### Loading parts of the metadata -/

theorem mdContent_eq (secs : List (List (AW × WReq))) : mdContent secs = secContent (secs.map mbytes) := by
  have : (secs.map mbytes).map List.length = secs.map msize := by
    rw [List.map_map]
    apply List.map_congr_left
    intro y _
    simp
  unfold mdContent secContent
  rw [this, List.length_map]

theorem MdOK.secOn {disk : Mem} {e : Ext} {secs : List (List (AW × WReq))} (h : MdOK disk e secs) :
    SecOn disk e (secs.map mbytes) := by
  unfold SecOn
  rw [h.bytes, mdContent_eq]

/-- The metadata read in one step: some consecutive sections, at least one. -/
theorem MdOK.part {disk : Mem} {e : Ext} {secs : List (List (AW × WReq))} (h : MdOK disk e secs)
    {mds : List Ext} {md sec lim : Nat} (he : mds[md]? = some e) (hs : sec < secs.length)
    (h63 : e.addr + e.size < 2 ^ 63) :
    ∃ i, sec < i ∧ i ≤ secs.length ∧
      loadPart disk mds lim md sec = .ok ((((secs.take i).drop sec).map mbytes).flatten,
        if mds.length ≤ (if secs.length ≤ i then md + 1 else md) then none
        else some (if secs.length ≤ i then md + 1 else md, if secs.length ≤ i then 0 else i)) := by
  obtain ⟨i, i1, i2, i3, _⟩ := h.secOn.part (lim := lim) he (by simpa using hs) (by omega)
  rw [List.length_map] at i2 i3
  refine ⟨i, i1, i2, ?_⟩
  rw [List.map_drop, List.map_take]
  exact i3

theorem hitsReq_append (q : RReq) (as bs : List (AW × Int)) :
    (hitsReq q as ++ hitsReq q bs).Perm (hitsReq q (as ++ bs)) := by
  unfold hitsReq
  refine (List.flatMap_append_perm _ _ _).trans ?_
  apply List.Perm.of_eq
  apply List.flatMap_congr
  intro p _
  unfold hitsBlk
  rw [List.filter_append, List.flatMap_append]

theorem hitsReq_perm (q : RReq) {as bs : List (AW × Int)} (h : as.Perm bs) :
    (hitsReq q as).Perm (hitsReq q bs) := by
  unfold hitsReq
  apply List.Perm.flatMap_left
  intro p _
  unfold hitsBlk
  exact (h.filter _).flatMap_right _

/-- The sections from a position on. -/
def restFrom (mdx : List (List (List (AW × WReq)))) (md sec : Nat) : List (List (AW × WReq)) :=
  ((mdx[md]?).getD []).drop sec ++ (mdx.drop (md + 1)).flatten

/-- Loading the metadata piece by piece, if every piece can be parsed and searched. -/
theorem loadLoop_gen {st : FState} {mdx : List (List (List (AW × WReq)))} {qs : List RReq}
    {lim : Nat} (hm : List.Forall₂ (MdOK st.disk) st.mds mdx)
    (hp : ∀ secs : List (List (AW × WReq)), (∀ s ∈ secs, s ∈ mdx.flatten) →
      ∃ ix, (Idx.empty st.compact).parse st.dsets st.cfg.share ((secs.map mbytes).flatten) = .ok ix ∧
        ∀ q ∈ qs, ∃ hs, ix.search q = .ok hs ∧ hs.map Hit.noX = hitsReq q (secs.flatten.map loc)) (hsm : Small st) :
    ∀ (fuel md sec : Nat) (secs : List (List (AW × WReq))), mdx[md]? = some secs → sec < secs.length →
      (restFrom mdx md sec).length ≤ fuel →
      ∃ raw, loadLoop st lim qs fuel (md, sec) = .ok raw ∧
        (raw.map Hit.noX).Perm (qs.flatMap (fun q => hitsReq q ((restFrom mdx md sec).flatten.map loc))) := by
  intro fuel
  induction fuel with
  | zero =>
    intro md sec secs h1 h2 h3
    unfold restFrom at h3
    rw [h1] at h3
    simp only [Option.getD_some, List.length_append, List.length_drop] at h3
    omega
  | succ fuel ih =>
    intro md sec secs h1 h2 h3
    obtain ⟨hmd, hsecs⟩ := List.getElem?_eq_some_iff.mp h1
    have hlen := hm.length_eq
    have hmd' : md < st.mds.length := by omega
    have hE : MdOK st.disk st.mds[md] secs := by
      have := (List.forall₂_iff_get.mp hm).2 md hmd' hmd
      simp only [List.get_eq_getElem, hsecs] at this
      exact this
    obtain ⟨i, i1, i2, i3⟩ := hE.part (lim := lim) (List.getElem?_eq_getElem hmd') h2
      (hsm _ (by simp))
    have hmem : ∀ s ∈ secs, s ∈ mdx.flatten := fun s hs =>
      List.mem_flatten.mpr ⟨secs, by rw [← hsecs]; exact List.getElem_mem hmd, hs⟩
    have hpart : ∀ s ∈ (secs.take i).drop sec, s ∈ mdx.flatten := fun s hs =>
      hmem s (List.mem_of_mem_take (List.mem_of_mem_drop hs))
    obtain ⟨ix, p1, p2⟩ := hp ((secs.take i).drop sec) hpart
    obtain ⟨hs, s1, s2⟩ := flatMapRes_ok (f := ix.search) (π := Hit.noX)
      (g := fun q => hitsReq q (((secs.take i).drop sec).flatten.map loc)) (l := qs) p2
    have hstep : loadLoop st lim qs (fuel + 1) (md, sec) = (match
        (if st.mds.length ≤ (if secs.length ≤ i then md + 1 else md) then none
        else some (if secs.length ≤ i then md + 1 else md, if secs.length ≤ i then 0 else i) :
          Option (Nat × Nat)) with
      | none => .ok hs
      | some pos' => (loadLoop st lim qs fuel pos').bind (fun hs' => .ok (hs ++ hs'))) := by
      conv => lhs; unfold loadLoop
      simp only
      rw [i3]
      simp only [Res.ok_bind]
      rw [p1]
      simp only [Res.ok_bind]
      rw [s1]
      simp only [Res.ok_bind]
      rfl
    rw [hstep]
    have hrest0 : restFrom mdx md sec = secs.drop sec ++ (mdx.drop (md + 1)).flatten := by
      unfold restFrom; rw [h1]; rfl
    have hdrop : secs.drop sec = (secs.take i).drop sec ++ secs.drop i := by
      have e : secs = secs.take i ++ secs.drop i := (List.take_append_drop i secs).symm
      conv => lhs; rw [e]
      rw [List.drop_append_of_le_length (by rw [List.length_take]; omega)]
    have combine : ∀ (rest' : List (List (AW × WReq))) (hs' : List Hit),
        restFrom mdx md sec = (secs.take i).drop sec ++ rest' →
        (hs'.map Hit.noX).Perm (qs.flatMap (fun q => hitsReq q (rest'.flatten.map loc))) →
        ((hs ++ hs').map Hit.noX).Perm
          (qs.flatMap (fun q => hitsReq q ((restFrom mdx md sec).flatten.map loc))) := by
      intro rest' hs' e hp
      rw [List.map_append, s2, e]
      refine (List.Perm.append_left _ hp).trans ((List.flatMap_append_perm _ _ _).trans ?_)
      apply List.Perm.flatMap_left
      intro q _
      rw [List.flatten_append, List.map_append]
      exact hitsReq_append q _ _
    by_cases hc1 : secs.length ≤ i
    · simp only [if_pos hc1]
      have hd0 : secs.drop i = [] := List.drop_eq_nil_of_le hc1
      rw [hd0, List.append_nil] at hdrop
      by_cases hc2 : st.mds.length ≤ md + 1
      · rw [if_pos hc2]
        refine ⟨hs, rfl, ?_⟩
        have := combine [] [] (by
          rw [hrest0, hdrop, List.drop_eq_nil_of_le (as := mdx) (by omega)]; rfl) (by
            have : qs.flatMap (fun q => hitsReq q (([] : List (List (AW × WReq))).flatten.map loc)) = [] := by
              rw [List.flatMap_eq_nil_iff]
              intro q _
              simp [hitsReq, hitsBlk]
            rw [this]; exact List.Perm.nil)
        rw [List.append_nil] at this
        exact this
      · rw [if_neg hc2]
        have hmd1 : md + 1 < mdx.length := by omega
        have hE1 : MdOK st.disk st.mds[md + 1] mdx[md + 1] := by
          have := (List.forall₂_iff_get.mp hm).2 (md + 1) (by omega) hmd1
          simpa only [List.get_eq_getElem] using this
        have hr' : restFrom mdx (md + 1) 0 = (mdx.drop (md + 1)).flatten := by
          unfold restFrom
          rw [List.getElem?_eq_getElem hmd1, Option.getD_some, List.drop_zero,
            List.drop_eq_getElem_cons hmd1, List.flatten_cons]
        have hl3 : (restFrom mdx (md + 1) 0).length ≤ fuel := by
          rw [hr']
          rw [hrest0, hdrop] at h3
          simp only [List.length_append, List.length_drop, List.length_take] at h3 ⊢
          omega
        obtain ⟨raw, r1, r2⟩ := ih (md + 1) 0 mdx[md + 1] (List.getElem?_eq_getElem hmd1) hE1.pos hl3
        refine ⟨hs ++ raw, ?_, combine _ raw (by rw [hrest0, hdrop, hr']) r2⟩
        simp only [r1]
        rfl
    · simp only [if_neg hc1]
      rw [if_neg (by omega)]
      have hr' : restFrom mdx md i = secs.drop i ++ (mdx.drop (md + 1)).flatten := by
        unfold restFrom; rw [h1]; rfl
      have hl3 : (restFrom mdx md i).length ≤ fuel := by
        rw [hr']
        rw [hrest0, hdrop] at h3
        simp only [List.length_append, List.length_drop, List.length_take] at h3 ⊢
        omega
      obtain ⟨raw, r1, r2⟩ := ih md i secs h1 (by omega) hl3
      refine ⟨hs ++ raw, ?_, combine _ raw (by rw [hrest0, hdrop, hr', List.append_assoc]) r2⟩
      simp only [r1]
      rfl

theorem loadLoop_good {cfg : Cfg} {st : FState} {mdx : List (List (List (AW × WReq)))} {qs : List RReq}
    {lim : Nat} (hcfg : st.cfg = cfg) (hm : List.Forall₂ (MdOK st.disk) st.mds mdx)
    (hg : ∀ s ∈ mdx.flatten, Good cfg st.compact st.dsets s)
    (hq : ∀ q ∈ qs, QOK st.compact st.dsets q mdx.flatten.flatten) (hsm : Small st) :
    ∀ (fuel md sec : Nat) (secs : List (List (AW × WReq))), mdx[md]? = some secs → sec < secs.length →
      (restFrom mdx md sec).length ≤ fuel →
      ∃ raw, loadLoop st lim qs fuel (md, sec) = .ok raw ∧
        (raw.map Hit.noX).Perm (qs.flatMap (fun q => hitsReq q ((restFrom mdx md sec).flatten.map loc))) := by
  refine loadLoop_gen hm (fun secs hs => ?_) hsm
  obtain ⟨ix, p1, p2⟩ := parse_good (idxOK_empty st.compact st.dsets) (secs := secs) (fun s h => hg s (hs s h))
  rw [List.nil_append] at p2
  rw [hcfg]
  refine ⟨ix, p1, fun q hq' => search_good p2 ((hq q hq').sub (fun x hx => ?_))⟩
  obtain ⟨s, h1, h2⟩ := List.mem_flatten.mp hx
  exact List.mem_flatten.mpr ⟨s, hs s h1, h2⟩

end Verif
