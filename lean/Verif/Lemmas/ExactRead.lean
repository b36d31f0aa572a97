import Verif.Lemmas.Exact

namespace Verif

open Spec (AW AFile WriteOK Small Layout Stored Known ReqsWF Repeats ReadResult Viewable Reach Returns ReturnsIfOk Confined
  SameEntry Origin EachOrigin Legible SmallRecords Buildable Measured)

abbrev Pos := List (AW × WReq) × (AW × WReq)

/-- The index holds what can be known of the given writes. -/
def IdxX (cfg : Cfg) (compact : Bool) (dsets : DSets) (ps : List Pos) : Idx → Prop
  | .list es => compact = false ∧ List.Forall₂ (fun (p : Pos) e => EntB p.2 e ∧ (FineL cfg p.1 p.2.1 → EntOK p.2 e))
      (ps.filter (fun p => linked dsets p.2.1.did)) es
  | .comp es => compact = true ∧ List.Forall₂ (fun (p : Pos) e => (FineC cfg dsets p.1 p.2.1 → CEntOK p.2 e) ∧
      (¬ FineC cfg dsets p.1 p.2.1 → CBad p.2 e)) (ps.filter (fun p => linked dsets p.2.1.did)) es

theorem idxX_empty (cfg : Cfg) (compact : Bool) (dsets : DSets) : IdxX cfg compact dsets [] (Idx.empty compact) := by
  cases compact <;> exact ⟨rfl, List.Forall₂.nil⟩

/-- The list index of these writes cannot be built. -/
def NoIdx (cfg : Cfg) (compact : Bool) (dsets : DSets) (ps : List Pos) : Prop :=
  compact = false ∧ ∃ p ∈ ps, LinkBad cfg dsets p.1 p.2.1

theorem parse_exact {cfg : Cfg} {compact : Bool} {dsets : DSets} {ps : List Pos} {ix : Idx}
    (h : IdxX cfg compact dsets ps ix) {secs : List (List (AW × WReq))} (hg : ∀ s ∈ secs, SecWF cfg dsets s) :
    (NoIdx cfg compact dsets (posL secs) → ix.parse dsets cfg.share ((secs.map mbytes).flatten) = .ub) ∧
    (¬ NoIdx cfg compact dsets (posL secs) → ∃ ix', ix.parse dsets cfg.share ((secs.map mbytes).flatten) = .ok ix' ∧
      IdxX cfg compact dsets (ps ++ posL secs) ix') := by
  cases ix with
  | list es =>
    obtain ⟨h1, h2⟩ := parseL_exact hg
    constructor
    · rintro ⟨_, hb⟩
      simp only [Idx.parse]; rw [h1 hb]; rfl
    · intro hn
      obtain ⟨es', e1, e2⟩ := h2 (fun p hp hb => hn ⟨h.1, p, hp, hb⟩)
      refine ⟨.list (es ++ es'), ?_, h.1, ?_⟩
      · simp only [Idx.parse]; rw [e1]; rfl
      · rw [List.filter_append]; exact List.rel_append h.2 e2
  | comp es =>
    obtain ⟨es', e1, e2⟩ := parseC_exact hg
    constructor
    · rintro ⟨hc, _⟩
      have := h.1
      rw [hc] at this; simp at this
    · intro _
      refine ⟨.comp (es ++ es'), ?_, h.1, ?_⟩
      · simp only [Idx.parse]; rw [e1]; rfl
      · rw [List.filter_append]; exact List.rel_append h.2 e2

theorem loadAll_exact {cfg : Cfg} {compact : Bool} {dsets : DSets} {disk : Mem} {mds : List Ext}
    {mdx : List (List (List (AW × WReq)))} (hm : List.Forall₂ (MdOK disk) mds mdx)
    (hg : ∀ s ∈ mdx.flatten, SecWF cfg dsets s) : ∀ {ps : List Pos} {ix : Idx}, IdxX cfg compact dsets ps ix →
    (NoIdx cfg compact dsets (posL mdx.flatten) → loadAll dsets cfg.share disk mds ix = .ub) ∧
    (¬ NoIdx cfg compact dsets (posL mdx.flatten) → ∃ ix', loadAll dsets cfg.share disk mds ix = .ok ix' ∧
      IdxX cfg compact dsets (ps ++ posL mdx.flatten) ix') := by
  induction hm with
  | nil =>
    intro ps ix h
    refine ⟨?_, fun _ => ⟨ix, rfl, by simpa [posL] using h⟩⟩
    rintro ⟨_, p, hp, _⟩
    simp [posL] at hp
  | @cons e secs mds mdx h1 _ ih =>
    intro ps ix h
    have hfl : (secs :: mdx).flatten = secs ++ mdx.flatten := rfl
    rw [hfl, posL_append]
    obtain ⟨p1, p2⟩ := parse_exact h (secs := secs) (fun s hs => hg s (by simp [hs]))
    have hload : ∀ ix', ix.parse dsets cfg.share ((secs.map mbytes).flatten) = ix' →
        loadAll dsets cfg.share disk (e :: mds) ix = (do let i ← ix'; loadAll dsets cfg.share disk mds i) := by
      intro ix' hx
      conv => lhs; unfold loadAll
      rw [h1.body]
      simp only [Res.ok_bind]
      rw [hx]
    by_cases hb : NoIdx cfg compact dsets (posL secs)
    · refine ⟨fun _ => ?_, fun hn => ?_⟩
      · rw [hload _ (p1 hb)]; rfl
      · obtain ⟨hc, p, hp, hlb⟩ := hb
        exact absurd ⟨hc, p, by simp [hp], hlb⟩ hn
    · obtain ⟨ix', q1, q2⟩ := p2 hb
      obtain ⟨r1, r2⟩ := ih (fun s hs => hg s (by rw [hfl, List.mem_append]; exact Or.inr hs)) q2
      rw [hload _ q1]
      simp only [Res.ok_bind]
      constructor
      · rintro ⟨hc, p, hp, hlb⟩
        rw [List.mem_append] at hp
        rcases hp with hp | hp
        · exact absurd ⟨hc, p, hp, hlb⟩ hb
        · exact r1 ⟨hc, p, hp, hlb⟩
      · intro hn
        obtain ⟨ix2, s1, s2⟩ := r2 (fun ⟨hc, p, hp, hlb⟩ => hn ⟨hc, p, by simp [hp], hlb⟩)
        exact ⟨ix2, s1, by rw [← List.append_assoc]; exact s2⟩

/-! ### Searching -/

/-- The index in use knows the blocks of the write and their offsets. -/
def Fine (cfg : Cfg) (compact : Bool) (dsets : DSets) (p : Pos) : Prop :=
  (compact = true → FineC cfg dsets p.1 p.2.1) ∧ (compact = false → FineL cfg p.1 p.2.1)

theorem hitsOf_did (q : RReq) (xs : List (AW × WReq)) :
    hitsOf q (xs.filter (fun x => decide (x.1.did = q.did))) = hitsOf q xs := by
  unfold hitsOf
  rw [List.filter_filter]
  simp only [Bool.and_self]

theorem searchL_did (es : List MEnt) (q : RReq) :
    searchL (es.filter (fun e => e.hdr.did == (q.did : Int))) q = searchL es q := by
  unfold searchL
  rw [List.filter_filter]
  simp only [Bool.and_self]

theorem searchC_did (es : List CEnt) (q : RReq) :
    searchC (es.filter (fun e => e.did == (q.did : Int))) q = searchC es q := by
  unfold searchC
  rw [List.filter_filter]
  simp only [Bool.and_self]

theorem forall₂_map_snd {ε : Type} {R : Pos → ε → Prop} {Q : AW × WReq → ε → Prop} {ps : List Pos} {es : List ε}
    (h : List.Forall₂ R ps es) (hq : ∀ p ∈ ps, ∀ e, R p e → Q p.2 e) : List.Forall₂ Q (ps.map (·.2)) es := by
  induction h with
  | nil => exact List.Forall₂.nil
  | @cons p e ps es h1 _ ih =>
    exact List.Forall₂.cons (hq p (by simp) e h1) (ih (fun p hp => hq p (by simp [hp])))

theorem forall₂_withMem {α β : Type} {R : α → β → Prop} {xs : List α} {es : List β} (h : List.Forall₂ R xs es) :
    List.Forall₂ (fun x e => R x e ∧ x ∈ xs) xs es := by
  have : List.Forall₂ (fun x e => x ∈ xs ∧ R x e) xs es := by
    rw [List.forall₂_and_left]
    exact ⟨fun x hx => hx, h⟩
  exact this.imp (fun _ _ h => ⟨h.2, h.1⟩)

theorem didEq (a b : Nat) : decide (a = b) = ((a : Int) == (b : Int)) := by
  by_cases h : a = b
  · simp [h]
  · have : ¬ ((a : Int) = (b : Int)) := by omega
    simp [h]; exact this

theorem search_exact {cfg : Cfg} {compact : Bool} {dsets : DSets} {q : RReq} {ps : List Pos} {ix : Idx}
    (hi : IdxX cfg compact dsets ps ix) (hq : QOK compact dsets q (ps.map (·.2)))
    (hf : ∀ p ∈ ps, p.2.1.did = q.did → Fine cfg compact dsets p) :
    ∃ hs, ix.search q = .ok hs ∧ hs.map Hit.noX = hitsReq q ((ps.map (·.2)).map loc) := by
  have key : ∀ xs : List (AW × WReq), xs = ((ps.filter (fun p => linked dsets p.2.1.did)).filter
        (fun p => decide (p.2.1.did = q.did))).map (·.2) →
      (∀ x ∈ xs, x ∈ ps.map (·.2)) ∧ hitsOf q xs = hitsReq q ((ps.map (·.2)).map loc) := by
    rintro xs rfl
    constructor
    · intro x hx
      obtain ⟨p, hp, rfl⟩ := List.mem_map.mp hx
      exact List.mem_map_of_mem (List.mem_of_mem_filter (List.mem_of_mem_filter hp))
    · rw [← hitsOf_loc hq.hdr, ← hitsOf_linked hq.lk (xs := ps.map (·.2)), ← hitsOf_did q (List.filter _ (ps.map (·.2))),
        List.filter_map, List.filter_map]
      rfl
  cases ix with
  | list es =>
    have hF := forall₂_filter_both (p := fun p : Pos => decide (p.2.1.did = q.did))
      (p' := fun e : MEnt => e.hdr.did == (q.did : Int)) (forall₂_withMem hi.2) (by
        rintro p e ⟨⟨he, _⟩, hp⟩
        rw [he.1, hq.req.did p.2 (List.mem_map_of_mem (List.mem_of_mem_filter hp))]
        exact didEq _ _)
    have hF2 := forall₂_map_snd (Q := EntOK) hF (by
      rintro p hp e ⟨⟨_, he⟩, hpm⟩
      simp only [List.mem_filter, decide_eq_true_eq] at hp
      exact he ((hf p hp.1.1 hp.2).2 hi.1))
    obtain ⟨k1, k2⟩ := key _ rfl
    obtain ⟨hs, h1, h2⟩ := searchL_ok (hq.req.sub k1) hF2
    rw [searchL_did] at h1
    exact ⟨hs, h1, by rw [h2]; exact k2⟩
  | comp es =>
    have hF := forall₂_filter_both (p := fun p : Pos => decide (p.2.1.did = q.did))
      (p' := fun e : CEnt => e.did == (q.did : Int)) (forall₂_withMem hi.2) (by
        rintro p e ⟨⟨he1, he2⟩, hp⟩
        have : e.did = p.2.2.hdr.did := by
          by_cases hfc : FineC cfg dsets p.1 p.2.1
          · exact (he1 hfc).1
          · exact (he2 hfc).1
        rw [this, hq.req.did p.2 (List.mem_map_of_mem (List.mem_of_mem_filter hp))]
        exact didEq _ _)
    have hF2 := forall₂_map_snd (Q := CEntOK) hF (by
      rintro p hp e ⟨⟨he, _⟩, hpm⟩
      simp only [List.mem_filter, decide_eq_true_eq] at hp
      exact he ((hf p hp.1.1 hp.2).1 hi.1))
    obtain ⟨k1, k2⟩ := key _ rfl
    obtain ⟨hs, h1, h2⟩ := searchC_ok (hq.req.sub k1) ((hq.creq hi.1).sub k1) hF2
    rw [searchC_did] at h1
    exact ⟨hs, h1, by rw [h2]; exact k2⟩

/-! ### Searches that fail -/

theorem flatMapRes_noerr {α β : Type} {f : α → Res (List β)} {l : List α} (h : ∀ a ∈ l, f a ≠ .err) : flatMapRes f l ≠ .err := by
  induction l with
  | nil => simp [flatMapRes]
  | cons a l ih =>
    unfold flatMapRes
    have h1 := h a (by simp)
    have h2 := ih (fun b hb => h b (by simp [hb]))
    cases ha : f a with
    | err => exact absurd ha h1
    | ub => simp
    | ok r =>
      simp only [Res.ok_bind]
      cases hl : flatMapRes f l with
      | err => exact absurd hl h2
      | ub => simp
      | ok r => simp

theorem flatMapRes_ub {α β : Type} {f : α → Res (List β)} {l : List α} (h : ∀ a ∈ l, f a ≠ .err) {a : α} (ha : a ∈ l)
    (hu : f a = .ub) : flatMapRes f l = .ub := by
  induction l with
  | nil => simp at ha
  | cons b l ih =>
    unfold flatMapRes
    have h1 := h b (by simp)
    have h2 := flatMapRes_noerr (fun c hc => h c (by simp [hc]) : ∀ c ∈ l, f c ≠ .err)
    cases hb : f b with
    | err => exact absurd hb h1
    | ub => simp
    | ok r =>
      simp only [Res.ok_bind]
      rcases List.mem_cons.mp ha with rfl | ha
      · rw [hu] at hb; simp at hb
      · rw [ih (fun c hc => h c (by simp [hc])) ha]
        rfl

theorem mkHit_noerr {q : RReq} {rb : Blk} {soff : Nat} {foff fsize : Int} {xs : Nat} {s c : List Nat} {doff : Nat}
    {os oc : List Nat} : mkHit q rb soff foff fsize xs s c doff os oc ≠ .err := by
  unfold mkHit
  dsimp only
  split <;> simp

theorem cblocks_noerr (k : Nat) : ∀ (n : Nat) (ws : List Nat), cblocks k n ws ≠ .err
  | 0, _ => by simp [cblocks]
  | n + 1, ws => by
    unfold cblocks
    split
    · simp
    · have := cblocks_noerr k n (ws.drop (2 * k))
      cases hc : cblocks k n (ws.drop (2 * k)) with
      | err => exact absurd hc this
      | ub => simp
      | ok r => simp

theorem cblocks_ub (k : Nat) : ∀ (n : Nat) (ws : List Nat), ws.length < 2 * k * n → cblocks k n ws = .ub
  | 0, ws, h => by simp at h
  | n + 1, ws, h => by
    unfold cblocks
    split
    · rfl
    · rename_i hl
      rw [cblocks_ub k n (ws.drop (2 * k)) (by rw [List.length_drop]; rw [Nat.mul_add, Nat.mul_one] at h; omega)]
      rfl

theorem searchEntC_noerr (q : RReq) (rb : Blk) (soff : Nat) (e : CEnt) : searchEntC q rb soff e ≠ .err := by
  unfold searchEntC
  cases e.blocks with
  | none => simp
  | some nw =>
    obtain ⟨n, ws⟩ := nw
    simp only
    split
    · split
      · split
        · simp
        · have hb := cblocks_noerr (q.d.ndim - 1) n ws
          cases hc : cblocks (q.d.ndim - 1) n ws with
          | err => exact absurd hc hb
          | ub => simp
          | ok bl =>
            simp only [Res.ok_bind]
            apply flatMapRes_noerr
            intro s _
            split
            · simp
            · rename_i rs rss rc rcs _ _ _ _ _ os oc _
              have hm := @mkHit_noerr q { start := rss, count := rcs } soff e.foff e.fsize e.dsize s.start s.count s.doff os oc
              cases hk : mkHit q { start := rss, count := rcs } soff e.foff e.fsize e.dsize s.start s.count s.doff os oc with
              | err => exact absurd hk hm
              | ub => simp
              | ok h =>
                simp only [Res.ok_bind]
                split <;> simp
      · simp
    · have hb := cblocks_noerr q.d.ndim n ws
      cases hc : cblocks q.d.ndim n ws with
      | err => exact absurd hc hb
      | ub => simp
      | ok bl =>
        simp only [Res.ok_bind]
        apply flatMapRes_noerr
        intro s _
        split
        · simp
        · rename_i os oc _
          have hm := @mkHit_noerr q rb soff e.foff e.fsize e.dsize s.start s.count s.doff os oc
          cases hk : mkHit q rb soff e.foff e.fsize e.dsize s.start s.count s.doff os oc with
          | err => exact absurd hk hm
          | ub => simp
          | ok h => simp

theorem searchEntL_noerr (q : RReq) (rb : Blk) (soff : Nat) (e : MEnt) : searchEntL q rb soff e ≠ .err := by
  unfold searchEntL
  apply flatMapRes_noerr
  intro s _
  split
  · simp
  · rename_i os oc _
    have hm := @mkHit_noerr q rb soff e.hdr.foff e.hdr.fsize e.dsize s.start s.count s.doff os oc
    cases hk : mkHit q rb soff e.hdr.foff e.hdr.fsize e.dsize s.start s.count s.doff os oc with
    | err => exact absurd hk hm
    | ub => simp
    | ok h => simp

theorem search_noerr (ix : Idx) (q : RReq) : ix.search q ≠ .err := by
  cases ix with
  | list es =>
    exact flatMapRes_noerr (fun p _ => flatMapRes_noerr (fun e _ => searchEntL_noerr q p.1 p.2 e))
  | comp es =>
    exact flatMapRes_noerr (fun p _ => flatMapRes_noerr (fun e _ => searchEntC_noerr q p.1 p.2 e))

theorem cflat_length {w : AW} (h : Spec.SelOK w.d w.bs) : (cflat w).length = 2 * (w.d.ndim - recDims w.d w.bs) * w.bs.length := by
  unfold cflat
  generalize recDims w.d w.bs = r
  have hb := h.blk
  generalize w.bs = bs at *
  clear h
  induction bs with
  | nil => simp
  | cons b bs ih =>
    have h1 := (hb b (by simp)).hs
    have h2 := (hb b (by simp)).hc
    rw [List.flatMap_cons, List.length_append, ih (fun c hc => hb c (by simp [hc])), List.length_append, List.length_drop,
      List.length_drop, h1, h2, List.length_cons, Nat.mul_add, Nat.mul_one]
    omega

theorem searchEntC_bad {q : RReq} {rb : Blk} {soff : Nat} {x : AW × WReq} {e : CEnt} (he : CBad x e)
    (hw : Spec.SelOK x.1.d x.1.bs) (hd : DSame q.d x.1.d) : searchEntC q rb soff e = .ub := by
  unfold searchEntC
  rcases he.2 with h | ⟨h1, h2, h3⟩
  · rw [h]
  · rw [h3, h2]
    simp only
    rw [if_neg (by omega), cblocks_ub]
    · rfl
    · rw [cflat_length hw, h1, hd.1]
      have hp : 0 < x.1.bs.length := List.length_pos_iff.mpr hw.ne
      have hn := recDims_le x.1.d x.1.bs
      rw [h1] at hn
      exact Nat.mul_lt_mul_of_pos_right (by omega) hp

theorem forall₂_exists_right {α β : Type} {R : α → β → Prop} {xs : List α} {es : List β} (h : List.Forall₂ R xs es) {x : α}
    (hx : x ∈ xs) : ∃ e ∈ es, R x e := by
  induction h with
  | nil => simp at hx
  | @cons y e xs es h1 _ ih =>
    rcases List.mem_cons.mp hx with rfl | hx
    · exact ⟨e, by simp, h1⟩
    · obtain ⟨e', h2, h3⟩ := ih hx
      exact ⟨e', by simp [h2], h3⟩

/-- A request to a dataset of which the compact index does not know all blocks. -/
theorem search_ub {cfg : Cfg} {dsets : DSets} {q : RReq} {ps : List Pos} {ix : Idx}
    (hi : IdxX cfg true dsets ps ix) (hb : q.bs ≠ []) {p : Pos} (hp : p ∈ ps) (hd : p.2.1.did = q.did)
    (hdid : p.2.2.hdr.did = (p.2.1.did : Int)) (hlk : linked dsets q.did = true) (hw : Spec.SelOK p.2.1.d p.2.1.bs)
    (hs : DSame q.d p.2.1.d) (hn : ¬ FineC cfg dsets p.1 p.2.1) : ix.search q = .ub := by
  cases ix with
  | list es => exact absurd hi.1 (by simp)
  | comp es =>
    obtain ⟨e, he, _, hbad⟩ := forall₂_exists_right hi.2 (x := p) (by simp [hp, hd, hlk])
    obtain ⟨b, bs, hbs⟩ := List.exists_cons_of_ne_nil hb
    refine flatMapRes_ub (a := (b, 0)) (fun p _ => flatMapRes_noerr (fun e _ => searchEntC_noerr q p.1 p.2 e))
      (by rw [hbs]; simp [withOffs]) ?_
    refine flatMapRes_ub (a := e) (fun e _ => searchEntC_noerr q _ _ e) ?_ (searchEntC_bad (hbad hn) hw hs)
    rw [List.mem_filter]
    refine ⟨he, ?_⟩
    rw [(hbad hn).1, hdid, hd]
    simp

/-! ### Loading by parts -/

theorem loadLoop_ub {st : FState} {mdx : List (List (List (AW × WReq)))} {qs : List RReq}
    {lim : Nat} (hm : List.Forall₂ (MdOK st.disk) st.mds mdx) (B : Pos → Prop)
    (hp : ∀ secs : List (List (AW × WReq)), (∀ s ∈ secs, s ∈ mdx.flatten) →
      (do let ix ← (Idx.empty st.compact).parse st.dsets st.cfg.share ((secs.map mbytes).flatten)
          flatMapRes ix.search qs) ≠ .err ∧
      ((∃ p ∈ posL secs, B p) → (do
          let ix ← (Idx.empty st.compact).parse st.dsets st.cfg.share ((secs.map mbytes).flatten)
          flatMapRes ix.search qs) = .ub)) (hsm : Small st) :
    ∀ (fuel md sec : Nat) (secs : List (List (AW × WReq))), mdx[md]? = some secs → sec < secs.length →
      (∃ p ∈ posL (restFrom mdx md sec), B p) → loadLoop st lim qs fuel (md, sec) = .ub := by
  intro fuel
  induction fuel with
  | zero => intro md sec secs _ _ _; rfl
  | succ fuel ih =>
    intro md sec secs h1 h2 hbad
    obtain ⟨hmd, hsecs⟩ := List.getElem?_eq_some_iff.mp h1
    have hlen := hm.length_eq
    have hmd' : md < st.mds.length := by omega
    have hE : MdOK st.disk st.mds[md] secs := by
      have := (List.forall₂_iff_get.mp hm).2 md hmd' hmd
      simp only [List.get_eq_getElem, hsecs] at this
      exact this
    obtain ⟨i, i1, i2, i3⟩ := hE.part (lim := lim) (List.getElem?_eq_getElem hmd') h2
      (hsm _ (by simp))
    have hmem : ∀ s ∈ secs, s ∈ mdx.flatten := fun s hs =>
      List.mem_flatten.mpr ⟨secs, by rw [← hsecs]; exact List.getElem_mem hmd, hs⟩
    have hpart : ∀ s ∈ (secs.take i).drop sec, s ∈ mdx.flatten := fun s hs =>
      hmem s (List.mem_of_mem_take (List.mem_of_mem_drop hs))
    obtain ⟨p1, p2⟩ := hp ((secs.take i).drop sec) hpart
    have hrest0 : restFrom mdx md sec = secs.drop sec ++ (mdx.drop (md + 1)).flatten := by
      unfold restFrom; rw [h1]; rfl
    have hdrop : secs.drop sec = (secs.take i).drop sec ++ secs.drop i := by
      have e : secs = secs.take i ++ secs.drop i := (List.take_append_drop i secs).symm
      conv => lhs; rw [e]
      rw [List.drop_append_of_le_length (by rw [List.length_take]; omega)]
    have hstep : loadLoop st lim qs (fuel + 1) (md, sec) = (do
        let hs ← (do
          let ix ← (Idx.empty st.compact).parse st.dsets st.cfg.share ((((secs.take i).drop sec).map mbytes).flatten)
          flatMapRes ix.search qs : Res (List Hit))
        match (if st.mds.length ≤ (if secs.length ≤ i then md + 1 else md) then none
          else some (if secs.length ≤ i then md + 1 else md, if secs.length ≤ i then 0 else i) :
            Option (Nat × Nat)) with
        | none => return hs
        | some pos' => do
          let hs' ← loadLoop st lim qs fuel pos'
          return hs ++ hs') := by
      conv => lhs; unfold loadLoop
      simp only
      rw [i3]
      simp only [Res.ok_bind]
      generalize (Idx.empty st.compact).parse st.dsets st.cfg.share
        ((((secs.take i).drop sec).map mbytes).flatten) = rx
      cases rx <;> rfl
    rw [hstep]
    generalize hX : (do
          let ix ← (Idx.empty st.compact).parse st.dsets st.cfg.share ((((secs.take i).drop sec).map mbytes).flatten)
          flatMapRes ix.search qs : Res (List Hit)) = X at p1 p2 ⊢
    cases X with
    | err => exact absurd rfl p1
    | ub => rfl
    | ok hs =>
      simp only [Res.ok_bind]
      have hnot : ¬ ∃ p ∈ posL ((secs.take i).drop sec), B p := fun h => by have := p2 h; simp at this
      have hrem : ∃ p ∈ posL (secs.drop i ++ (mdx.drop (md + 1)).flatten), B p := by
        obtain ⟨p, hp', hB⟩ := hbad
        rw [hrest0, hdrop, List.append_assoc, posL_append, List.mem_append] at hp'
        rcases hp' with hp' | hp'
        · exact absurd ⟨p, hp', hB⟩ hnot
        · exact ⟨p, hp', hB⟩
      by_cases hc1 : secs.length ≤ i
      · simp only [if_pos hc1]
        have hd0 : secs.drop i = [] := List.drop_eq_nil_of_le hc1
        rw [hd0, List.nil_append] at hrem
        by_cases hc2 : st.mds.length ≤ md + 1
        · exfalso
          rw [List.drop_eq_nil_of_le (by omega)] at hrem
          obtain ⟨p, hp', _⟩ := hrem
          simp [posL] at hp'
        · rw [if_neg hc2]
          have hmd1 : md + 1 < mdx.length := by omega
          have hE1 : MdOK st.disk st.mds[md + 1] mdx[md + 1] := by
            have := (List.forall₂_iff_get.mp hm).2 (md + 1) (by omega) hmd1
            simpa only [List.get_eq_getElem] using this
          have hr' : restFrom mdx (md + 1) 0 = (mdx.drop (md + 1)).flatten := by
            unfold restFrom
            rw [List.getElem?_eq_getElem hmd1, List.drop_eq_getElem_cons hmd1]
            rfl
          rw [← hr'] at hrem
          simp only [ih (md + 1) 0 mdx[md + 1] (List.getElem?_eq_getElem hmd1) hE1.pos hrem]
          rfl
      · simp only [if_neg hc1]
        rw [if_neg (by omega)]
        have hr' : restFrom mdx md i = secs.drop i ++ (mdx.drop (md + 1)).flatten := by
          unfold restFrom; rw [h1]; rfl
        rw [← hr'] at hrem
        simp only [ih md i secs h1 (by omega) hrem]
        rfl

end Verif
