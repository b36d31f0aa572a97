import Verif.Lemmas.ReplayFile
import Verif.Spec.Dump

/-
h5ldump: the table of datasets, sections, entries.
-/

namespace Verif

open Spec (AW AFile Printed Lists WriteOK Known Recordable)

theorem mapRes_rel {α β γ : Type} {R : γ → β → Prop} {f : α → Res β} {xs : List γ} {as : List α}
    (h : List.Forall₂ (fun x a => ∃ b, f a = .ok b ∧ R x b) xs as) :
    ∃ bs, mapRes f as = .ok bs ∧ List.Forall₂ R xs bs := by
  induction h with
  | nil => exact ⟨[], rfl, List.Forall₂.nil⟩
  | cons h1 _ ih =>
    obtain ⟨b, b1, b2⟩ := h1
    obtain ⟨bs, c1, c2⟩ := ih
    refine ⟨b :: bs, ?_, List.Forall₂.cons b2 c2⟩
    simp [mapRes, b1, c1]

/-! ### The table -/

theorem dumpVisit1_ok {T : DSets} {o : VObj} {dsets : DSets} (hl : T.length = dsets.length)
    (ho : dumpSkips o.path = false → ∀ x, o.dset = some x → ∃ i d, x = some (i, d) ∧ dsets[i]? = some (some d)) :
    ∃ T', dumpVisit1 T o = .ok T' ∧ T'.length = dsets.length ∧
      (∀ (i : Nat) d, dsets[i]? = some (some d) → T[i]? = some (some { d with mdims := [] }) →
        T'[i]? = some (some { d with mdims := [] })) ∧
      ∀ (i : Nat) d, dsets[i]? = some (some d) → dumpSkips o.path = false → o.dset = some (some (i, d)) →
        T'[i]? = some (some { d with mdims := [] }) := by
  unfold dumpVisit1
  cases hs : dumpSkips o.path with
  | true => exact ⟨T, by simp, hl, fun _ _ _ h => h, fun _ _ _ h => by simp at h⟩
  | false =>
    cases hd : o.dset with
    | none => exact ⟨T, by simp, hl, fun _ _ _ h => h, fun _ _ _ _ h => by simp at h⟩
    | some x =>
      obtain ⟨i, d, rfl, h1⟩ := ho hs x hd
      have hi : i < dsets.length := (List.getElem?_eq_some_iff.mp h1).1
      refine ⟨T.set i (some { d with mdims := [] }), ?_, by simpa using hl, ?_, ?_⟩
      · simp [hl, hi]
      · intro j e hj hT
        rw [List.getElem?_set]
        split
        · rename_i hij
          subst hij
          rw [h1] at hj
          simp only [Option.some.injEq] at hj
          rw [if_pos (by omega), hj]
        · exact hT
      · intro j e hj _ he
        simp only [Option.some.injEq, Prod.mk.injEq] at he
        obtain ⟨rfl, rfl⟩ := he
        rw [List.getElem?_set_self (by omega)]

theorem dumpVisit_fold {dsets : DSets} : ∀ (objs : List VObj) (T : DSets), T.length = dsets.length →
    (∀ o ∈ objs, dumpSkips o.path = false → ∀ x, o.dset = some x → ∃ i d, x = some (i, d) ∧ dsets[i]? = some (some d)) →
    ∃ T' : DSets, objs.foldl (fun (r : Res DSets) o => r.bind (fun T => dumpVisit1 T o)) (.ok T) = .ok T' ∧ T'.length = dsets.length ∧
      (∀ (i : Nat) d, dsets[i]? = some (some d) → T[i]? = some (some { d with mdims := [] }) →
        T'[i]? = some (some { d with mdims := [] })) ∧
      ∀ (i : Nat) d, dsets[i]? = some (some d) → (∃ o ∈ objs, dumpSkips o.path = false ∧ o.dset = some (some (i, d))) →
        T'[i]? = some (some { d with mdims := [] })
  | [], T, hl, _ => ⟨T, rfl, hl, fun _ _ _ h => h, fun _ _ _ h => by simp at h⟩
  | o :: objs, T, hl, h => by
    obtain ⟨T1, a1, a2, a3, a4⟩ := dumpVisit1_ok (o := o) hl (h o (by simp))
    obtain ⟨T2, b1, b2, b3, b4⟩ := dumpVisit_fold objs T1 a2 (fun o' ho => h o' (by simp [ho]))
    refine ⟨T2, ?_, b2, fun i d hd hT => b3 i d hd (a3 i d hd hT), ?_⟩
    · rw [List.foldl_cons]
      simp only [Res.bind]
      rw [a1]
      exact b1
    · rintro i d hd ⟨o', ho, o1, o2⟩
      simp only [List.mem_cons] at ho
      rcases ho with rfl | ho
      · exact b3 i d hd (a4 i d hd o1 o2)
      · exact b4 i d hd ⟨o', ho, o1, o2⟩

/-- The table has the extent and the element size of every present dataset. -/
theorem dumpVisit_ok {objs : List VObj} {dsets : DSets} (h : Lists objs dsets) :
    ∃ T, dumpVisit dsets.length objs = .ok T ∧ T.length = dsets.length ∧
      ∀ (i : Nat) d, dsets[i]? = some (some d) → T[i]? = some (some { d with mdims := [] }) := by
  obtain ⟨T, a1, a2, _, a4⟩ := dumpVisit_fold objs (List.replicate dsets.length (some ⟨[], [], 0⟩)) (by simp) h.only
  exact ⟨T, a1, a2, fun i d hd => a4 i d hd (h.all i d hd)⟩

/-! ### Sections -/

theorem secElem_ref {cfg : Cfg} {prev : List (AW × WReq)} {w : AW} {r : WReq} (h : SecElem cfg prev w r)
    (hs : cfg.share = false) : r.hdr.flags.ref = false := by
  rcases h with ⟨h, _⟩ | ⟨_, _, _, _, _, _, h, _⟩
  · rw [h]; rfl
  · rw [hs] at h; simp at h

theorem stepL_noref {dsets : DSets} {share : Bool} {buf : List Byte} {off : Nat} {h : Hdr} {cache : List (Int × List MSel)}
    (hr : share = false → h.flags.ref = false) : stepL dsets true buf off h cache = stepL dsets share buf off h cache := by
  cases share with
  | true => rfl
  | false =>
    unfold stepL
    simp [hr rfl]

/-- As `parseL_sections`, with references followed in any case. -/
theorem parseL_true {cfg : Cfg} {dsets : DSets} {secs : List (List (AW × WReq))}
    (h : ∀ xs ∈ secs, SecOK cfg dsets xs) (hs : ∀ xs ∈ secs, ListShare cfg xs) :
    ∃ es, parseL dsets true ((secs.map mbytes).flatten) = .ok es ∧
      List.Forall₂ EntOK (secs.flatten.filter (fun x => linked dsets x.1.did)) es := by
  obtain ⟨ess, hF, hl⟩ := parseLoop_sections
    (stepL dsets true ((secs.map mbytes).flatten))
    (fun x es => (es = [] ∧ linked dsets x.1.did = false) ∨
      ∃ e, es = [e] ∧ EntOK x e ∧ linked dsets x.1.did = true)
    (CacheL cfg dsets) ((secs.map mbytes).flatten)
    (by intro base cache _ p1 w k p2 hh; simp at hh)
    secs [] [] ((secs.map mbytes).flatten).length (by simp) (fun xs hx => (h xs hx).fit)
    (by
      intro xs hx pre post hb prev x rest cache hsp hC
      have hok := h xs hx
      have hxm : x ∈ xs := by rw [hsp]; simp
      have hpm : ∀ y ∈ prev, y ∈ xs := by intro y hy; rw [hsp]; simp [hy]
      have := stepL_sec (cfg := cfg) (dsets := dsets) (prev := prev) (w := x.1) (r := x.2)
        (cache := cache) pre (mbytes rest ++ post) (hok.sec prev x rest hsp) (hok.wf x hxm)
        (fun y hy => hok.wf y (hpm y hy))
        (fun hsh y ho => by
          have he := ho.shares
          obtain ⟨p, q, hpq⟩ := mem_split_before (x := x) (rest := rest) ho.mem
          exact hs xs hx hsh p y q x rest (hsp.trans hpq) he)
        (hok.fit x hxm)
        (by have := hok.sz; rw [hsp] at this; simp at this; omega)
        (hok.ds x hxm)
        (fun hsh hlk y ho => by
          have he := ho.shares
          obtain ⟨p, q, hpq⟩ := mem_split_before (x := x) (rest := rest) ho.mem
          exact hok.link hsh p y ⟨q, x, rest, hsp.trans hpq, he, hlk⟩) hC
      have hb2 : (secs.map mbytes).flatten = pre ++ mbytes prev ++ x.2.bytes ++ (mbytes rest ++ post) := by
        rw [hb, hsp]; simp
      rw [← hb2] at this
      rw [stepL_noref (fun hsh => secElem_ref (hok.sec prev x rest hsp) hsh)]
      exact this)
    (length_flatten_le secs)
  exact ⟨_, hl, forall₂_filter hF⟩

/-! ### Entries -/

theorem dumpBuf_ge {d : DInfo} {bs : List Blk} : d.esize * (bs.map Blk.size).sum ≤ dumpBuf d (Spec.sels d.esize bs) := by
  unfold dumpBuf
  rcases List.eq_nil_or_concat bs with rfl | ⟨l, b, rfl⟩
  · simp
  · have : (Spec.sels d.esize (l ++ [b])).getLast? = some ⟨b.start, b.count, Spec.dataOffset d.esize (l ++ [b]) l.length⟩ := by
      unfold Spec.sels
      rw [List.mapIdx_append]
      simp
    rw [List.concat_eq_append, this]
    simp only [Spec.dataOffset, List.take_left', List.map_append, List.map_cons, List.map_nil, List.sum_append,
      List.sum_cons, List.sum_nil, Nat.add_zero]
    generalize (l.map Blk.size).sum = s
    show d.esize * (s + prod b.count) ≤ (prod b.count + d.esize * s) * d.esize
    rcases Nat.eq_zero_or_pos d.esize with h0 | h0
    · rw [h0]; simp
    · rw [Nat.mul_comm]
      refine Nat.mul_le_mul_right _ ?_
      have : s ≤ d.esize * s := Nat.le_mul_of_pos_left _ h0
      omega

/-- The parts of the blocks are all the data. -/
theorem parts_flatten {es : Nat} : ∀ (bs pre : List Blk) (data : List Byte),
    data.length = es * ((pre ++ bs).map Blk.size).sum →
    (bs.mapIdx (fun i b => ((data.drop (Spec.dataOffset es (pre ++ bs) (pre.length + i))).take (b.size * es)))).flatten =
      data.drop (es * (pre.map Blk.size).sum)
  | [], pre, data, h => by
    rw [List.append_nil] at h
    simp [h]
  | b :: bs, pre, data, h => by
    have ih := parts_flatten (es := es) bs (pre ++ [b]) data (by simpa using h)
    simp only [List.append_assoc, List.singleton_append, List.length_append, List.length_singleton] at ih
    rw [List.mapIdx_cons, List.flatten_cons]
    have e1 : (fun i (b' : Blk) => (data.drop (Spec.dataOffset es (pre ++ b :: bs) (pre.length + (i + 1)))).take (b'.size * es)) =
        (fun i (b' : Blk) => (data.drop (Spec.dataOffset es (pre ++ b :: bs) (pre.length + 1 + i))).take (b'.size * es)) := by
      funext i b'
      rw [show pre.length + (i + 1) = pre.length + 1 + i by omega]
    rw [e1, ih]
    simp only [Spec.dataOffset, Nat.add_zero, List.take_left']
    rw [List.map_append, List.sum_append, Nat.mul_add]
    simp only [List.map_cons, List.map_nil, List.sum_cons, List.sum_nil, Nat.add_zero]
    rw [← List.drop_drop, Nat.mul_comm es b.size, List.take_append_drop]

theorem dumpEnt_ok {T : DSets} {disk : Mem} {wd : Bool} {x : AW × WReq} {e : MEnt} (he : EntOK x e) {cfg : Cfg}
    (hw : WriteOK cfg x.1) (hex : x.1.Exact) {d : DInfo} (hT : T[x.1.did]? = some (some d)) (hes : d.esize = x.1.d.esize)
    (hd : x.2.did = x.1.did) (hdat : x.2.data = x.1.data)
    (h0 : 0 ≤ x.2.foff) (hsto : ∀ (i : Nat) (h : i < x.1.data.length), disk (x.2.foff.toNat + i) = x.1.data[i]) :
    ∃ p, dumpEnt T disk wd e = .ok p ∧ Printed wd x.1 p := by
  obtain ⟨e1, e2⟩ := he
  have hfoff : e.hdr.foff = x.2.foff := by rw [e1]; rfl
  have hfsize : e.hdr.fsize = (x.1.data.length : Int) := by rw [e1, ← hdat]; rfl
  have hdid : e.hdr.did = (x.1.did : Int) := by rw [e1, ← hd]; rfl
  have hshort := hw.short
  have hsized : x.1.data.length = x.1.d.esize * (x.1.bs.map Blk.size).sum := hex
  unfold dumpEnt
  rw [hdid, if_neg (by omega)]
  simp only [Int.toNat_natCast]
  rw [hT]
  simp only
  cases wd with
  | false =>
    refine ⟨_, rfl, ?_, hfsize, ?_, ?_, by simp, by simp⟩
    · rfl
    · rw [e2]
      unfold Spec.sels
      apply List.ext_getElem (by simp)
      intro i h1 h2
      simp
    · intro p hp
      simp only [List.mem_map] at hp
      obtain ⟨s, _, rfl⟩ := hp
      rfl
  | true =>
    rw [hfoff, hfsize]
    simp only [if_true]
    have hbuf : fileBytes disk x.2.foff.toNat x.1.data.length = x.1.data := by
      apply List.ext_getElem (by simp)
      intro i h1 h2
      rw [fileBytes_getElem, hsto i h2]
    have hcap : x.1.data.length ≤ dumpBuf d e.sels := by
      rw [e2, hsized, ← hes]
      exact dumpBuf_ge
    rw [if_neg (by omega), if_neg (by omega)]
    simp only [Int.toNat_natCast]
    rw [hbuf]
    have hm : mapRes (dumpBlk d x.1.data) e.sels = .ok (x.1.bs.mapIdx (fun i b =>
        (⟨Spec.dataOffset x.1.d.esize x.1.bs i, b,
          some ((x.1.data.drop (Spec.dataOffset x.1.d.esize x.1.bs i)).take (b.size * x.1.d.esize))⟩ : PBlk))) := by
      have hF : List.Forall₂ (fun (v : PBlk) (s : MSel) => ∃ b, dumpBlk d x.1.data s = .ok b ∧ v = b)
          (x.1.bs.mapIdx (fun i b => (⟨Spec.dataOffset x.1.d.esize x.1.bs i, b,
            some ((x.1.data.drop (Spec.dataOffset x.1.d.esize x.1.bs i)).take (b.size * x.1.d.esize))⟩ : PBlk))) e.sels := by
        rw [e2, List.forall₂_iff_get]
        refine ⟨by simp [Spec.sels], ?_⟩
        intro i h1 h2
        have hi : i < x.1.bs.length := by simpa using h1
        have hle := dataOffset_fits (e := x.1.d.esize) hi
        have hlen : ¬ x.1.data.length < Spec.dataOffset x.1.d.esize x.1.bs i + prod x.1.bs[i].count * d.esize := by
          rw [hsized, hes, Nat.mul_comm (prod _)]
          have : prod x.1.bs[i].count = (x.1.bs[i]).size := rfl
          rw [this]; omega
        refine ⟨_, ?_, rfl⟩
        simp only [Spec.sels, List.get_eq_getElem, List.getElem_mapIdx, dumpBlk]
        rw [if_neg hlen, hes]
        rfl
      obtain ⟨bs, b1, b2⟩ := mapRes_rel hF
      rw [List.forall₂_eq_eq_eq] at b2
      rw [b1, b2]
    rw [hm]
    refine ⟨_, rfl, rfl, rfl, ?_, ?_, ?_, ?_⟩
    · apply List.ext_getElem (by simp)
      intro i h1 h2
      simp
    · intro p hp
      obtain ⟨i, hi, rfl⟩ := List.getElem_of_mem hp
      simp
    · intro _ p hp y hy
      obtain ⟨i, hi, rfl⟩ := List.getElem_of_mem hp
      simp only [List.getElem_mapIdx, Option.some.injEq] at hy ⊢
      have hi' : i < x.1.bs.length := by simpa using hi
      have hle := dataOffset_fits (e := x.1.d.esize) hi'
      rw [← hy, List.length_take, List.length_drop, hsized]
      rw [Nat.mul_comm (x.1.bs[i]).size]
      omega
    · intro _
      have := parts_flatten (es := x.1.d.esize) x.1.bs [] x.1.data (by simpa using hsized)
      simp only [List.nil_append, List.length_nil, Nat.zero_add, List.map_nil, List.sum_nil, Nat.mul_zero,
        List.drop_zero] at this
      refine Eq.trans ?_ this
      congr 1
      apply List.ext_getElem (by simp)
      intro i h1 h2
      simp

/-! ### Metadata datasets -/

theorem linked_get {T : DSets} {i : Nat} {d : DInfo} (h : T[i]? = some (some d)) : linked T i = true := by
  unfold linked
  rw [h]

theorem dumpMd_ok {cfg : Cfg} {T : DSets} {disk : Mem} {wd : Bool} {junk : Ext → Nat → Nat} {e : Ext}
    {secs : List (List (AW × WReq))} (h : MdOK disk e secs) (hsz : e.size < 2 ^ 64)
    (hok : ∀ xs ∈ secs, SecOK cfg T xs) (hsh : ∀ xs ∈ secs, ListShare cfg xs)
    (hl : ∀ xs ∈ secs, ∀ x ∈ xs, linked T x.1.did = true)
    (hent : ∀ xs ∈ secs, ∀ x ∈ xs, ∀ e, EntOK x e → ∃ p, dumpEnt T disk wd e = .ok p ∧ Printed wd x.1 p) :
    ∃ out, dumpMd T disk wd junk e = .ok out ∧
      List.Forall₂ (List.Forall₂ (fun (x : AW × WReq) p => Printed wd x.1 p)) secs out := by
  have hso := h.secOn
  obtain ⟨ends, he⟩ : ∃ ends, ends = inscan (8 * (secs.length + 1)) ((secs.map mbytes).map List.length) := ⟨_, rfl⟩
  have hends : e.ends disk = .ok ends := by
    have := hso.ends (by omega)
    rw [List.length_map] at this
    rw [he]; exact this
  have hlen : ends.length = secs.length := by rw [he, inscan_length, List.length_map, List.length_map]
  have hget : ∀ (j : Nat), j < ends.length → ends.getD j 0 =
      8 * (secs.length + 1) + (((secs.map mbytes).map List.length).take (j + 1)).sum := by
    intro j hj
    rw [List.getD_eq_getElem?_getD, List.getElem?_eq_getElem hj, Option.getD_some]
    subst he
    exact inscan_getElem _ _ _ hj
  unfold dumpMd
  rw [hends]
  simp only [Res.ok_bind]
  rw [Props.C36_bounds ends (by simp)]
  refine mapRes_rel ?_
  rw [List.forall₂_iff_get]
  refine ⟨by simp [Props.recorded, hlen], ?_⟩
  intro i h1 h2
  simp only [List.get_eq_getElem, Props.recorded, List.getElem_map, List.getElem_range]
  have hs0 : Props.sectionStart ends i = 8 * (secs.length + 1) + (((secs.map mbytes).map List.length).take i).sum := by
    unfold Props.sectionStart
    split
    · rename_i h0
      rw [h0, hlen]; simp
    · rw [hget _ (by omega), show i - 1 + 1 = i by omega]
  have hs1 : Props.sectionEnd ends i = 8 * (secs.length + 1) + (((secs.map mbytes).map List.length).take (i + 1)).sum :=
    hget i (by omega)
  have hsl := sum_take_slice ((secs.map mbytes).map List.length) (show i ≤ i + 1 by omega)
  have hr := hso.range (a := i) (b := i + 1) (by omega)
  rw [List.length_map] at hr
  have hone : slice i (i + 1) (secs.map mbytes) = [mbytes secs[i]] := by
    unfold slice
    have hi : i < (secs.map mbytes).length := by simpa using h1
    rw [List.take_succ_eq_append_getElem hi, List.drop_left' (by rw [List.length_take]; omega), List.getElem_map]
  rw [hone] at hr
  have hlen2 : Props.sectionEnd ends i - Props.sectionStart ends i = (slice i (i + 1) ((secs.map mbytes).map List.length)).sum := by
    rw [hs0, hs1]; omega
  rw [if_neg (by rw [hs0, hs1]; omega), hlen2, hs0, hr]
  simp only [Res.ok_bind, List.flatten_cons, List.flatten_nil, List.append_nil]
  have hm : secs[i] ∈ secs := List.getElem_mem h1
  obtain ⟨es, e1, e2⟩ := parseL_true (cfg := cfg) (dsets := T) (secs := [secs[i]])
    (fun xs hx => by rw [List.mem_singleton] at hx; rw [hx]; exact hok _ hm)
    (fun xs hx => by rw [List.mem_singleton] at hx; rw [hx]; exact hsh _ hm)
  simp only [List.map_cons, List.map_nil, List.flatten_cons, List.flatten_nil, List.append_nil] at e1 e2
  rw [List.filter_eq_self.mpr (hl _ hm)] at e2
  unfold dumpSec
  rw [e1]
  simp only [Res.ok_bind]
  refine mapRes_rel (forall₂_mem e2 ?_)
  intro x e hx hxe
  exact hent _ hm x hx e hxe

/-- The dump of a file whose writes are all recorded. -/
theorem Inv.dump {cfg : Cfg} {g : Ghost} {st : FState} {a : AFile} (h : Inv cfg g st a) (hsv : st.saved = st.mds.length)
    {objs : List VObj} (hobj : Lists objs st.dsets) (hpr : ∀ w ∈ a.secs.flatten, ∃ d, st.dsets[w.did]? = some (some d))
    (hsz : cfg.share = true → ∀ p ∈ a.secs, p.Pairwise (fun x y => Spec.SameSel x y →
      x.d.esize = y.d.esize ∨ y.bs.length = 1)) (hex : ∀ w ∈ a.secs.flatten, w.Exact) (wd : Bool) (junk : Ext → Nat → Nat) :
    ∃ out, st.dump objs wd junk = .ok out ∧
      List.Forall₂ (List.Forall₂ (List.Forall₂ (fun (x : AW × WReq) p => Printed wd x.1 p))) g.mdx out := by
  have hm : ∀ secs ∈ g.mdx, ∀ xs ∈ secs, ∀ x ∈ xs, x ∈ g.mdx.flatten.flatten := by
    intro secs h1 xs h2 x h3
    exact List.mem_flatten.mpr ⟨xs, List.mem_flatten.mpr ⟨secs, h1, h2⟩, h3⟩
  have hpr' : ∀ x ∈ g.mdx.flatten.flatten, ∃ d, st.dsets[x.1.did]? = some (some d) := by
    intro x hx
    refine hpr _ ?_
    rw [← h.ord.2, ← List.map_flatten]
    exact List.mem_map_of_mem hx
  obtain ⟨T, t1, t2, t3⟩ := dumpVisit_ok hobj
  have hkn : ∀ x ∈ g.mdx.flatten.flatten, Known T x.1 := by
    intro x hx
    obtain ⟨d, d1⟩ := hpr' x hx
    have hk := (h.wokm x hx).2
    refine ⟨by rw [t2]; exact hk.lt, ?_⟩
    intro d' hd'
    rw [t3 _ _ d1] at hd'
    simp only [Option.some.injEq] at hd'
    rw [← hd']
    exact hk.same d d1
  have hrec : ∀ secs ∈ g.mdx, ∀ xs ∈ secs, ∀ x ∈ xs, Recordable cfg x.1 x.2.foff := by
    intro secs h1 xs h2 x hx
    exact recordable_of (h.wokm x (hm _ h1 _ h2 _ hx)).1 (h.foff _ (hm _ h1 _ h2 _ hx)).1 (h.foff _ (hm _ h1 _ h2 _ hx)).2
  have hlk : ∀ x ∈ g.mdx.flatten.flatten, linked T x.1.did = true := by
    intro x hx
    obtain ⟨d, d1⟩ := hpr' x hx
    exact linked_get (t3 _ _ d1)
  unfold FState.dump
  rw [t1]
  simp only [Res.ok_bind]
  rw [hsv, List.take_length]
  refine mapRes_rel ?_
  rw [List.forall₂_iff_get]
  refine ⟨h.md.length_eq.symm, ?_⟩
  intro i h1 h2
  simp only [List.get_eq_getElem]
  have hmd := (List.forall₂_iff_get.mp h.md).2 i h2 h1
  simp only [List.get_eq_getElem] at hmd
  have hs : g.mdx[i] ∈ g.mdx := List.getElem_mem h1
  have hsm := h.small (st.mds[i]'h2) (by simp)
  refine dumpMd_ok (cfg := cfg) hmd (by omega) ?_ ?_ (fun xs hx x hxx => hlk x (hm _ hs _ hx _ hxx)) ?_
  · intro xs hx
    obtain ⟨s1, s2, s3⟩ := h.sec xs (List.mem_flatten.mpr ⟨_, hs, hx⟩)
    refine secOK_of s1 (hrec _ hs _ hx) (fun x hxx => hkn x (hm _ hs _ hx _ hxx)) s2 ?_
    intro _
    refine List.Pairwise.imp_of_mem (R := fun _ _ => True) ?_ (List.pairwise_of_forall (fun _ _ => trivial))
    intro x y hxx _ _ _ _
    obtain ⟨d, d1⟩ := hpr' x (hm _ hs _ hx _ hxx)
    unfold Spec.present
    rw [t3 _ _ d1]
  · intro xs hx
    refine listShare_of (hrec _ hs _ hx) (fun hshr => ?_)
    have := hsz hshr _ (h.sec xs (List.mem_flatten.mpr ⟨_, hs, hx⟩)).2.2
    rw [List.pairwise_map] at this
    exact this
  · intro xs hx x hxx e hxe
    have hxm := hm _ hs _ hx _ hxx
    obtain ⟨d, d1⟩ := hpr' x hxm
    have hst := h.sto (loc x) (h.perm.mem_iff.mpr (List.mem_map_of_mem (by simp only [List.mem_append]; exact Or.inl hxm)))
    have hx' : x.1.Exact := by
      refine hex _ ?_
      rw [← h.ord.2, ← List.map_flatten]
      exact List.mem_map_of_mem hxm
    exact dumpEnt_ok hxe (h.wokm x hxm).1 hx' (t3 _ _ d1) ((h.wokm x hxm).2.same d d1).2 (h.hdrs x hxm).1 (h.hdrs x hxm).2
      (h.foff _ hxm).1 hst

theorem forall₂_flatten {α β : Type} {R : α → β → Prop} {l : List (List α)} {m : List (List β)}
    (h : List.Forall₂ (List.Forall₂ R) l m) : List.Forall₂ R l.flatten m.flatten := by
  induction h with
  | nil => exact List.Forall₂.nil
  | cons h1 _ ih => exact List.rel_append h1 ih

end Verif
