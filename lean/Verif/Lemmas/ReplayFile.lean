import Verif.Lemmas.Replay
import Verif.Lemmas.FileRead
import Verif.Props.Tools

/-
What the processes of h5lreplay read from a closed file.
-/

namespace Verif

open Spec (AW AFile WriteOK InBlk splitWrite lastByte dataOffset Covers NoRace FitsNow Known)
open Props (firstSec firstSec_lt firstSec_mono firstSec_end C35_sections_partial C35_entries_partial sectionStart sectionEnd)

/-- Consecutive elements `a`, ..., `b - 1`. -/
def slice {α : Type} (a b : Nat) (l : List α) : List α := (l.take b).drop a

theorem slice_map {α β : Type} (f : α → β) (a b : Nat) (l : List α) : slice a b (l.map f) = (slice a b l).map f := by
  unfold slice
  rw [List.map_drop, List.map_take]

theorem slice_mem {α : Type} {a b : Nat} {l : List α} {x : α} (h : x ∈ slice a b l) : x ∈ l :=
  List.mem_of_mem_take (List.mem_of_mem_drop h)

theorem sum_take_slice (ns : List Nat) {a b : Nat} (h : a ≤ b) :
    (ns.take b).sum = (ns.take a).sum + (slice a b ns).sum := by
  unfold slice
  have e1 : ns.take a = (ns.take b).take a := by rw [List.take_take, Nat.min_eq_left h]
  rw [e1, ← List.sum_append, List.take_append_drop]

theorem SecOn.range {disk : Mem} {e : Ext} {secs : List (List Byte)} (h : SecOn disk e secs) {a b : Nat}
    (hab : a ≤ b) :
    e.read disk (8 * (secs.length + 1) + ((secs.map List.length).take a).sum) (slice a b (secs.map List.length)).sum =
      .ok ((slice a b secs).flatten) := by
  obtain ⟨offs, ho⟩ : ∃ offs, offs = inscan (8 * (secs.length + 1)) (secs.map List.length) := ⟨_, rfl⟩
  have hol : offs.length = secs.length := by rw [ho, inscan_length, List.length_map]
  have hcont : secContent secs = leN 8 secs.length ++ putWords offs ++ secs.flatten := by
    rw [ho]
    simp [secContent, putWords]
  have hsplit : secs = secs.take a ++ slice a b secs ++ secs.drop b := by
    unfold slice
    have e1 : secs.take a = (secs.take b).take a := by
      rw [List.take_take, Nat.min_eq_left (by omega)]
    rw [e1, List.take_append_drop, List.take_append_drop]
  refine h.read (pre := leN 8 secs.length ++ putWords offs ++ (secs.take a).flatten)
    (post := (secs.drop b).flatten) ?_ ?_ ?_
  · have e3 : secs.flatten = (secs.take a).flatten ++ (slice a b secs).flatten ++ (secs.drop b).flatten := by
      rw [← List.flatten_append, ← List.flatten_append, ← hsplit]
    rw [hcont, e3]
    simp only [List.append_assoc]
  · rw [List.length_append, List.length_append, putWords_length, List.length_flatten, leN_length, hol,
      List.map_take]
    omega
  · rw [List.length_flatten, slice_map]

theorem SecOn.ends {disk : Mem} {e : Ext} {secs : List (List Byte)} (h : SecOn disk e secs) (h63 : e.size < 2 ^ 64) :
    e.ends disk = .ok (inscan (8 * (secs.length + 1)) (secs.map List.length)) := by
  obtain ⟨n1, n2⟩ := h.nsec h63
  obtain ⟨offs, ho⟩ : ∃ offs, offs = inscan (8 * (secs.length + 1)) (secs.map List.length) := ⟨_, rfl⟩
  have hol : offs.length = secs.length := by rw [ho, inscan_length, List.length_map]
  have hcont : secContent secs = leN 8 secs.length ++ putWords offs ++ secs.flatten := by
    rw [ho]
    simp [secContent, putWords]
  have hoffs : e.read disk 8 (8 * secs.length) = .ok (putWords offs) := by
    refine h.read (pre := leN 8 secs.length) (post := secs.flatten) ?_ (by simp) (by simp [hol])
    exact hcont
  have hw : words secs.length (putWords offs) = offs := by
    have := words_putWords offs (fun w hw => by
      rw [ho] at hw
      have := inscan_le hw
      have := h.size
      omega)
    rw [hol] at this
    exact this
  unfold Ext.ends
  rw [n1]
  simp only [Res.ok_bind, n2]
  rw [hoffs]
  simp only [Res.ok_bind, hw]
  rw [ho]; rfl

/-- Sections of one metadata dataset that process `r` replays. -/
def partOf {α : Type} (np r : Nat) (secs : List α) : List α :=
  slice (firstSec secs.length np r) (firstSec secs.length np (r + 1)) secs

theorem partOf_mem {α : Type} {np r : Nat} {secs : List α} {x : α} (h : x ∈ partOf np r secs) : x ∈ secs := slice_mem h

theorem partOf_map {α β : Type} (f : α → β) (np r : Nat) (secs : List α) :
    partOf np r (secs.map f) = (partOf np r secs).map f := by
  unfold partOf
  rw [slice_map, List.length_map]

/-- The parts are consecutive. -/
theorem partOf_all {α : Type} {np : Nat} (hnp : 0 < np) (secs : List α) :
    (List.range np).flatMap (fun r => partOf np r secs) = secs := by
  have key : ∀ n, (List.range n).flatMap (fun r => partOf np r secs) = secs.take (firstSec secs.length np n) := by
    intro n
    induction n with
    | zero => simp [firstSec]
    | succ n ih =>
      rw [List.range_succ, List.flatMap_append, ih]
      simp only [List.flatMap_cons, List.flatMap_nil, List.append_nil]
      unfold partOf slice
      have hm := firstSec_mono (nsec := secs.length) (np := np) (show n ≤ n + 1 by omega)
      have e1 : secs.take (firstSec secs.length np n) =
          (secs.take (firstSec secs.length np (n + 1))).take (firstSec secs.length np n) := by
        rw [List.take_take, Nat.min_eq_left hm]
      rw [e1, List.take_append_drop]
  rw [key, firstSec_end hnp, List.take_length]

theorem linked_replay {dsets : DSets} {did : Nat} (h : did < dsets.length) : linked (replayDsets dsets) did = true := by
  rw [linked_iff]
  refine ⟨(dsets[did]).getD ⟨[], [], 0⟩, ?_⟩
  unfold replayDsets
  rw [List.getElem?_map, List.getElem?_eq_getElem h]
  rfl

/-- What a process reads from a metadata dataset. -/
theorem replayMd_ok {cfg : Cfg} {dsets : DSets} {disk : Mem} {e : Ext} {secs : List (List (AW × WReq))}
    (h : MdOK disk e secs) (hsz : e.size < 2 ^ 31) {np r : Nat} (hr : r < np) (hn : np ≤ secs.length)
    (hok : ∀ xs ∈ secs, SecOK cfg (replayDsets dsets) xs) :
    ∃ es, replayMd dsets cfg.share disk np r e = .ok es ∧ List.Forall₂ EntB (partOf np r secs).flatten es := by
  have hnp : 0 < np := by omega
  have hso := h.secOn
  obtain ⟨ends, he⟩ : ∃ ends, ends = inscan (8 * (secs.length + 1)) ((secs.map mbytes).map List.length) := ⟨_, rfl⟩
  have hends : e.ends disk = .ok ends := by
    have := hso.ends (by omega)
    rw [List.length_map] at this
    rw [he]; exact this
  have hl : ends.length = secs.length := by rw [he, inscan_length, List.length_map, List.length_map]
  have hsize := hso.size
  rw [List.length_map] at hsize
  have hlt : ∀ w ∈ ends, w < 2 ^ 31 := by
    intro w hw
    rw [he] at hw
    have := inscan_le hw
    omega
  have hget : ∀ (j : Nat), j < ends.length → ends.getD j 0 =
      8 * (secs.length + 1) + (((secs.map mbytes).map List.length).take (j + 1)).sum := by
    intro j hj
    rw [List.getD_eq_getElem?_getD, List.getElem?_eq_getElem hj, Option.getD_some]
    subst he
    exact inscan_getElem _ _ _ hj
  obtain ⟨hp, _⟩ := C35_sections_partial ends hnp (by omega) hlt (by rw [hl]; omega)
  obtain ⟨p, p1, p2, p3, p4, p5⟩ := hp r hr
  rw [hl] at p2 p3 p5
  obtain ⟨fa, hfa⟩ : ∃ fa, fa = firstSec secs.length np r := ⟨_, rfl⟩
  obtain ⟨fb, hfb⟩ : ∃ fb, fb = firstSec secs.length np (r + 1) := ⟨_, rfl⟩
  have hfbl : fb ≤ secs.length := by
    have := firstSec_mono (nsec := secs.length) (np := np) (show r + 1 ≤ np from hr)
    rwa [firstSec_end hnp, ← hfb] at this
  rw [← hfa, ← hfb] at p5
  have hstart : p.start = ((8 * (secs.length + 1) + (((secs.map mbytes).map List.length).take fa).sum : Nat) : Int) := by
    rw [p2, ← hfa]
    unfold sectionStart
    split
    · rename_i h0
      rw [h0, hl]; simp
    · rw [hget _ (by omega), show fa - 1 + 1 = fa by omega]
  have hstop : p.stop = ((8 * (secs.length + 1) + (((secs.map mbytes).map List.length).take fb).sum : Nat) : Int) := by
    rw [p3, ← hfb]
    unfold sectionEnd
    rw [hget _ (by omega), show fb - 1 + 1 = fb by omega]
  have hsum := sum_take_slice ((secs.map mbytes).map List.length) (show fa ≤ fb by omega)
  have hdiff : (p.stop - p.start).toNat = (slice fa fb ((secs.map mbytes).map List.length)).sum := by
    rw [hstart, hstop, hsum]; omega
  have hrange := hso.range (a := fa) (b := fb) (by omega)
  rw [List.length_map] at hrange
  obtain ⟨es, e1, e2⟩ := parseB_sections (cfg := cfg) (dsets := replayDsets dsets) (secs := partOf np r secs)
    (fun xs hx => hok xs (partOf_mem hx))
  have hfl : (partOf np r secs).flatten.filter (fun x => linked (replayDsets dsets) x.1.did) =
      (partOf np r secs).flatten := by
    rw [List.filter_eq_self]
    intro x hx
    obtain ⟨xs, hxs, hx'⟩ := List.mem_flatten.mp hx
    have := ((hok xs (partOf_mem hxs)).ds x hx').lt
    refine linked_replay ?_
    unfold replayDsets at this
    simpa using this
  rw [hfl] at e2
  refine ⟨es, ?_, e2⟩
  unfold replayMd
  rw [hends]
  simp only [Res.ok_bind]
  have hne : ends ≠ [] := by
    intro hc
    rw [hc] at hl
    simp at hl
    omega
  rw [if_neg hne, p1]
  simp only [Res.ok_bind]
  rw [if_neg (by rw [hstart, hstop, hsum]; omega), hdiff, hstart, Int.toNat_natCast, hrange]
  simp only [Res.ok_bind]
  have hb : (slice fa fb (secs.map mbytes)).flatten = ((partOf np r secs).map mbytes).flatten := by
    unfold partOf
    rw [slice_map, hfa, hfb]
  rw [hb, e1]
  simp only [Res.ok_bind]
  unfold replayTake
  split
  · rename_i h0; rw [h0]
  · rw [p4, if_neg (by decide)]
    split
    · rw [(C35_entries_partial p.off es 0).1]
    · rfl

/-! ### Writes of an entry -/

theorem fitsIn_of : ∀ {s c d : List Nat}, s.length = d.length → c.length = d.length →
    (∀ i, ∀ (hs : i < s.length) (hc : i < c.length) (hd : i < d.length), s[i] + c[i] ≤ d[i]) →
    (∀ x ∈ c, 0 < x) → fitsIn s c d = true
  | [], [], [], _, _, _, _ => rfl
  | [], _ :: _, _, h1, h2, _, _ => by simp at h1 h2; omega
  | _ :: _, [], _, h1, h2, _, _ => by simp at h1 h2; omega
  | s :: ss, c :: cs, d :: ds, h1, h2, h3, h4 => by
    have ih := fitsIn_of (s := ss) (c := cs) (d := ds) (by simpa using h1) (by simpa using h2)
      (fun i hs hc hd => by
        have := h3 (i + 1) (by simpa using hs) (by simpa using hc) (by simpa using hd)
        simpa using this) (fun x hx => h4 x (by simp [hx]))
    have h0 := h3 0 (by simp) (by simp) (by simp)
    simp only [List.getElem_cons_zero] at h0
    unfold fitsIn
    simp [ih, h0, h4 c (by simp)]

theorem flatMapRes_eq {α β γ : Type} {f : α → Res (List β)} {g : γ → List β} {xs : List γ} {as : List α}
    (h : List.Forall₂ (fun x a => f a = .ok (g x)) xs as) : flatMapRes f as = .ok (xs.flatMap g) := by
  induction h with
  | nil => rfl
  | cons h1 _ ih =>
    unfold flatMapRes
    rw [h1, ih]
    rfl

theorem dataOffset_fits {e : Nat} {bs : List Blk} {i : Nat} (hi : i < bs.length) :
    dataOffset e bs i + e * (bs[i]).size ≤ e * (bs.map Blk.size).sum := by
  have h := dataOffset_le (e := e) hi (Nat.le_refl _)
  have h2 : dataOffset e bs bs.length = e * (bs.map Blk.size).sum := by
    unfold dataOffset
    rw [List.take_of_length_le (by simp)]
  omega

theorem replayEnt_ok {dsets : DSets} {disk : Mem} {x : AW × WReq} {e : MEnt} (he : EntB x e) {cfg : Cfg}
    (hw : WriteOK cfg x.1) (hf : FitsNow dsets x.1) (hk : Known dsets x.1) (hd : x.2.did = x.1.did) (hdat : x.2.data = x.1.data)
    (h0 : 0 ≤ x.2.foff) (hsto : ∀ (i : Nat) (h : i < x.1.data.length), disk (x.2.foff.toNat + i) = x.1.data[i]) :
    replayEnt dsets disk e = .ok ((splitWrite x.1).map ofAW) := by
  obtain ⟨d, d1, d2⟩ := hf
  obtain ⟨k1, k2⟩ := hk.same d d1
  have hes : x.1.d.esize = d.esize := k2.symm
  obtain ⟨e1, z, e2⟩ := he
  have hfoff : e.hdr.foff = x.2.foff := by rw [e1]; rfl
  have hfsize : e.hdr.fsize = (x.1.data.length : Int) := by rw [e1, ← hdat]; rfl
  have hdid : e.hdr.did = (x.1.did : Int) := by rw [e1, ← hd]; rfl
  have hshort := hw.short
  unfold replayEnt
  rw [hfoff, hfsize, hdid, if_neg (by omega)]
  simp only [Int.toNat_natCast]
  rw [d1]
  simp only
  have hbuf : fileBytes disk x.2.foff.toNat x.1.data.length = x.1.data := by
    apply List.ext_getElem (by simp)
    intro i h1 h2
    rw [fileBytes_getElem, hsto i h2]
  rw [hbuf]
  have hbs : e.sels.map (fun s => (⟨s.start, s.count⟩ : Blk)) = x.1.bs := by
    rw [e2]
    unfold Spec.sels
    apply List.ext_getElem (by simp)
    intro i h1 h2
    simp
  rw [hbs, sels_eq_blkDoffs]
  have hF : List.Forall₂ (fun (v : AW) (s : MSel) => replayBlk d x.1.did x.1.data s = .ok [ofAW v]) (splitWrite x.1)
      (Spec.sels d.esize x.1.bs) := by
    rw [List.forall₂_iff_get]
    unfold splitWrite Spec.sels
    refine ⟨by simp, ?_⟩
    intro i h1 h2
    have hi : i < x.1.bs.length := by simpa using h1
    simp only [List.get_eq_getElem, List.getElem_mapIdx]
    have hm : x.1.bs[i] ∈ x.1.bs := List.getElem_mem hi
    obtain ⟨b1, b2⟩ := d2 _ hm
    have hsized := hw.sized.1
    have hle := dataOffset_fits (e := d.esize) hi
    rw [hes] at hsized
    unfold replayBlk
    have hpr : prod (x.1.bs[i]).count = (x.1.bs[i]).size := rfl
    simp only
    rw [if_neg (by rw [hpr]; omega), if_pos (fitsIn_of b1.1 b1.2.1 b1.2.2 b2), hpr]
    simp only [ofAW, List.headD_cons, hes]
  rw [flatMapRes_eq hF]
  congr 1
  rw [← List.map_eq_flatMap]


/-! ### Sequences of writes -/

theorem filter_split (l : List AW) (did : Nat) (x : List Nat) :
    (l.flatMap splitWrite).filter (coversB did x) =
      ((l.filter (fun w => decide (w.did = did))).flatMap splitWrite).filter (coversB did x) := by
  induction l with
  | nil => rfl
  | cons w l ih =>
    rw [List.flatMap_cons, List.filter_append, ih, List.filter_cons]
    by_cases h : w.did = did
    · simp [h]
    · have : (splitWrite w).filter (coversB did x) = [] := by
        rw [List.filter_eq_nil_iff]
        intro v hv hc
        exact h (splitWrite_covers hv (coversB_iff.mp hc)).1
      rw [this]
      simp [h]

/-- Processing dataset by dataset does not change the order of the writes to a cell. -/
theorem filter_byNum (l : List AW) {did n : Nat} (h : did < n) (x : List Nat) :
    ((byNum AW.did n l).flatMap splitWrite).filter (coversB did x) = (l.flatMap splitWrite).filter (coversB did x) := by
  rw [filter_split, byNum_filter AW.did h, ← filter_split]

theorem byNum_map {α β : Type} (f : β → Nat) (g : α → β) (n : Nat) (l : List α) :
    byNum f n (l.map g) = (byNum (fun a => f (g a)) n l).map g := by
  unfold byNum
  rw [List.map_flatMap]
  congr 1
  funext i
  rw [List.filter_map]
  rfl

theorem forall₂_filter_mem {α β : Type} {R : α → β → Prop} {p : α → Bool} {q : β → Bool} {l : List α} {m : List β}
    (h : List.Forall₂ R l m) (hpq : ∀ a b, R a b → a ∈ l → p a = q b) : List.Forall₂ R (l.filter p) (m.filter q) := by
  induction h with
  | nil => exact .nil
  | @cons a b l m h1 _ ih =>
    have ih := ih (fun a' b' r hm => hpq a' b' r (by simp [hm]))
    have := hpq a b h1 (by simp)
    rw [List.filter_cons, List.filter_cons, ← this]
    split
    · exact .cons h1 ih
    · exact ih

theorem forall₂_mem {α β : Type} {R S : α → β → Prop} {l : List α} {m : List β} (h : List.Forall₂ R l m)
    (hs : ∀ a b, a ∈ l → R a b → S a b) : List.Forall₂ S l m := by
  induction h with
  | nil => exact .nil
  | @cons a b l m h1 _ ih =>
    exact .cons (hs a b (by simp) h1) (ih (fun a' b' hm => hs a' b' (by simp [hm])))

theorem forall₂_flatMap {α β γ : Type} {R : α → β → Prop} {f : γ → List α} {g : γ → List β} {l : List γ}
    (h : ∀ c ∈ l, List.Forall₂ R (f c) (g c)) : List.Forall₂ R (l.flatMap f) (l.flatMap g) := by
  induction l with
  | nil => exact .nil
  | cons c l ih =>
    rw [List.flatMap_cons, List.flatMap_cons]
    exact List.rel_append (h c (by simp)) (ih (fun c' hc => h c' (by simp [hc])))

theorem flatMapRes_rel {α β γ δ : Type} {R : δ → β → Prop} {f : α → Res (List β)} {g : γ → List δ} {xs : List γ}
    {as : List α} (h : List.Forall₂ (fun a x => ∃ bs, f a = .ok bs ∧ List.Forall₂ R (g x) bs) as xs) :
    ∃ bs, flatMapRes f as = .ok bs ∧ List.Forall₂ R (xs.flatMap g) bs := by
  induction h with
  | nil => exact ⟨[], rfl, .nil⟩
  | cons h1 _ ih =>
    obtain ⟨bs, b1, b2⟩ := h1
    obtain ⟨cs, c1, c2⟩ := ih
    refine ⟨bs ++ cs, ?_, ?_⟩
    · unfold flatMapRes
      rw [b1, c1]; rfl
    · rw [List.flatMap_cons]
      exact List.rel_append b2 c2

/-- The writes of process `r`, dataset by dataset. -/
def procAW (n np r : Nat) (mdx : List (List (List (AW × WReq)))) : List AW :=
  (byNum AW.did n ((mdx.flatMap (fun secs => (partOf np r secs).flatten)).map (·.1))).flatMap splitWrite

/-- Conditions for replaying a file. -/
structure Replayable (g : Ghost) (st : FState) (np : Nat) : Prop where
  saved : st.saved = st.mds.length
  size : ∀ e ∈ st.mds, e.size < 2 ^ 31
  many : ∀ secs ∈ g.mdx, np ≤ secs.length
  fits : ∀ x ∈ g.mdx.flatten.flatten, FitsNow st.dsets x.1

theorem present_replay {dsets : DSets} {did : Nat} (h : did < dsets.length) :
    Spec.present (replayDsets dsets) did = true := by
  unfold Spec.present replayDsets
  rw [List.getElem?_map, List.getElem?_eq_getElem h]
  rfl

theorem Inv.replayProc {cfg : Cfg} {g : Ghost} {st : FState} {a : AFile} (h : Inv cfg g st a) {np : Nat}
    (hp : Replayable g st np) {r : Nat} (hr : r < np) :
    st.replayProc np r = .ok ((procAW st.dsets.length np r g.mdx).map ofAW) := by
  have hm : ∀ secs ∈ g.mdx, ∀ xs ∈ secs, ∀ x ∈ xs, x ∈ g.mdx.flatten.flatten := by
    intro secs h1 xs h2 x h3
    exact List.mem_flatten.mpr ⟨xs, List.mem_flatten.mpr ⟨secs, h1, h2⟩, h3⟩
  have hkn : ∀ x ∈ g.mdx.flatten.flatten, Known (replayDsets st.dsets) x.1 := by
    intro x hx
    obtain ⟨d, d1, _⟩ := hp.fits x hx
    have hk := (h.wokm x hx).2
    refine ⟨?_, ?_⟩
    · have := hk.lt
      unfold replayDsets
      simpa using this
    · intro d' hd'
      unfold replayDsets at hd'
      rw [List.getElem?_map, d1] at hd'
      simp only [Option.map_some, Option.getD_some, Option.some.injEq] at hd'
      rw [← hd']
      exact hk.same d d1
  have hok : ∀ secs ∈ g.mdx, ∀ xs ∈ secs, SecOK cfg (replayDsets st.dsets) xs := by
    intro secs h1 xs h2
    obtain ⟨s1, s2, s3⟩ := h.sec xs (List.mem_flatten.mpr ⟨secs, h1, h2⟩)
    refine secOK_of s1 (fun x hx => recordable_of (h.wokm x (hm _ h1 _ h2 _ hx)).1 ?_ ?_)
      (fun x hx => hkn x (hm _ h1 _ h2 _ hx)) s2 ?_
    · exact (h.foff _ (hm _ h1 _ h2 _ hx)).1
    · exact (h.foff _ (hm _ h1 _ h2 _ hx)).2
    · intro _
      refine List.Pairwise.imp_of_mem (R := fun _ _ => True) ?_ (List.pairwise_of_forall (fun _ _ => trivial))
      intro x y hx _ _ _ _
      exact present_replay ((h.wokm x (hm _ h1 _ h2 _ hx)).2.lt)
  have hes : ∃ es, flatMapRes (replayMd st.dsets st.cfg.share st.disk np r) st.mds = .ok es ∧
      List.Forall₂ EntB (g.mdx.flatMap (fun secs => (partOf np r secs).flatten)) es := by
    refine flatMapRes_rel ?_
    rw [List.forall₂_iff_get]
    refine ⟨h.md.length_eq, ?_⟩
    intro i h1 h2
    simp only [List.get_eq_getElem]
    rw [h.cfgEq]
    have hmd := (List.forall₂_iff_get.mp h.md).2 i h1 h2
    exact replayMd_ok hmd (hp.size _ (List.getElem_mem h1)) hr (hp.many _ (List.getElem_mem h2))
      (hok _ (List.getElem_mem h2))
  obtain ⟨es, e1, e2⟩ := hes
  obtain ⟨X, hX⟩ : ∃ X, X = g.mdx.flatMap (fun secs => (partOf np r secs).flatten) := ⟨_, rfl⟩
  rw [← hX] at e2
  have hXm : ∀ x ∈ X, x ∈ g.mdx.flatten.flatten := by
    intro x hx
    rw [hX] at hx
    obtain ⟨secs, h1, h2⟩ := List.mem_flatMap.mp hx
    obtain ⟨xs, h3, h4⟩ := List.mem_flatten.mp h2
    exact hm _ h1 _ (partOf_mem h3) _ h4
  unfold FState.replayProc
  rw [hp.saved, List.take_length, e1]
  simp only [Res.ok_bind]
  have hdd : ∀ x ∈ X, x.2.did = x.1.did ∧ x.2.data = x.1.data := by
    intro x hx
    exact h.hdrs _ (hXm x hx)
  have hfin : List.Forall₂ EntB (byNum (fun x => x.1.did) st.dsets.length X)
      ((List.range st.dsets.length).flatMap (fun (i : Nat) => es.filter (fun e => decide (e.hdr.did = (i : Int))))) := by
    unfold byNum
    refine forall₂_flatMap ?_
    intro i _
    refine forall₂_filter_mem e2 ?_
    intro x e hxe hx
    have : e.hdr.did = (x.1.did : Int) := by
      rw [hxe.1, ← (hdd x hx).1]; rfl
    show decide (x.1.did = i) = decide (e.hdr.did = (i : Int))
    rw [this, decide_eq_decide]
    constructor <;> intro he <;> omega
  have hres : List.Forall₂ (fun (x : AW × WReq) (e : MEnt) => replayEnt st.dsets st.disk e = .ok ((splitWrite x.1).map ofAW))
      (byNum (fun x => x.1.did) st.dsets.length X)
      ((List.range st.dsets.length).flatMap (fun (i : Nat) => es.filter (fun e => decide (e.hdr.did = (i : Int))))) := by
    refine forall₂_mem hfin ?_
    intro x e hx hxe
    have hxX := byNum_mem hx
    have hxm := hXm x hxX
    have hst := h.sto (loc x) (h.perm.mem_iff.mpr (List.mem_map_of_mem (by simp only [List.mem_append]; exact Or.inl hxm)))
    exact replayEnt_ok hxe (h.wokm x hxm).1 (hp.fits x hxm) (h.wokm x hxm).2 (hdd x hxX).1 (hdd x hxX).2
      (h.foff _ hxm).1 hst
  rw [flatMapRes_eq hres]
  unfold procAW
  rw [← hX, byNum_map, List.flatMap_map, List.map_flatMap]

/-- The sections written to a file, in the order of the file. -/
def Ghost.secs (g : Ghost) : List (List AW) := g.mdx.flatten.map (fun xs => xs.map (·.1))

theorem Ghost.secs_flatten (g : Ghost) : g.secs.flatten = g.mdx.flatten.flatten.map (·.1) := by
  unfold Ghost.secs
  rw [← List.map_flatten]

theorem procAW_perm {n np : Nat} (hnp : 0 < np) (g : Ghost) {did : Nat} (hd : did < n) (x : List Nat) :
    (((List.range np).flatMap (fun r => procAW n np r g.mdx)).filter (coversB did x)).Perm
      ((g.secs.flatten.flatMap splitWrite).filter (coversB did x)) := by
  have h1 : ((List.range np).flatMap (fun r => procAW n np r g.mdx)).filter (coversB did x) =
      (((List.range np).flatMap (fun r => (g.mdx.flatMap (fun secs => (partOf np r secs).flatten)).map (·.1))).flatMap
        splitWrite).filter (coversB did x) := by
    rw [List.flatMap_assoc, List.filter_flatMap, List.filter_flatMap]
    congr 1
    funext r
    exact filter_byNum _ hd x
  rw [h1]
  refine List.Perm.filter _ (List.Perm.flatMap_right _ ?_)
  rw [g.secs_flatten, ← List.map_flatMap]
  refine List.Perm.map _ ?_
  refine (flatMap_swap _ _ _).trans (List.Perm.of_eq ?_)
  have h2 : ∀ secs : List (List (AW × WReq)), (List.range np).flatMap (fun r => (partOf np r secs).flatten) = secs.flatten := by
    intro secs
    conv => rhs; rw [← partOf_all hnp secs]
    simp only [List.flatMap_def, List.flatten_flatten, List.map_map]
    rfl
  simp only [h2]
  rw [List.flatMap_def, ← List.flatten_flatten]

theorem sublist_flatMap {α β : Type} (f : α → List β) {l m : List α} (h : l.Sublist m) : (l.flatMap f).Sublist (m.flatMap f) := by
  induction h with
  | slnil => exact List.Sublist.refl _
  | cons a _ ih => rw [List.flatMap_cons]; exact ih.trans (List.sublist_append_right _ _)
  | cons_cons a _ ih => rw [List.flatMap_cons, List.flatMap_cons]; exact ih.append_left _

/-- Every section is replayed by one process, in order. -/
theorem procAW_sub {n np : Nat} (hnp : 0 < np) {g : Ghost} {did : Nat} (hd : did < n) (x : List Nat) {s : List AW}
    (hs : s ∈ g.secs) : ∃ r < np, ((s.flatMap splitWrite).filter (coversB did x)).Sublist
      ((procAW n np r g.mdx).filter (coversB did x)) := by
  unfold Ghost.secs at hs
  obtain ⟨xs, h1, h2⟩ := List.mem_map.mp hs
  obtain ⟨secs, h3, h4⟩ := List.mem_flatten.mp h1
  rw [← partOf_all hnp secs] at h4
  obtain ⟨r, h5, h6⟩ := List.mem_flatMap.mp h4
  refine ⟨r, List.mem_range.mp h5, ?_⟩
  unfold procAW
  rw [filter_byNum _ hd]
  refine List.Sublist.filter _ (sublist_flatMap _ ?_)
  rw [← h2]
  refine List.Sublist.map _ ?_
  rw [List.flatMap_def]
  refine (List.sublist_flatten_of_mem h6).trans ?_
  exact List.sublist_flatten_of_mem (List.mem_map.mpr ⟨secs, h3, rfl⟩)

theorem splitWrite_d {w v : AW} (h : v ∈ splitWrite w) : v.d = w.d := by
  unfold splitWrite at h
  rw [List.mem_mapIdx] at h
  obtain ⟨i, hi, rfl⟩ := h
  rfl

theorem splitWrite_single {w v : AW} {cfg : Cfg} (hw : WriteOK cfg w) (h : v ∈ splitWrite w) : Single v := by
  unfold splitWrite at h
  rw [List.mem_mapIdx] at h
  obtain ⟨i, hi, rfl⟩ := h
  have hb := hw.sel.blk _ (List.getElem_mem hi)
  refine ⟨⟨_, rfl, ?_⟩, ?_⟩
  · rw [hb.hs, hb.hc]
  · have := dataOffset_fits (e := w.d.esize) hi
    have hs := hw.sized.1
    refine AW.Exact.sized ?_
    unfold AW.Exact
    simp only [List.length_take, List.length_drop, List.map_cons, List.map_nil, List.sum_cons, List.sum_nil, Nat.add_zero]
    omega

/-- The possible results: the blocks are written in an interleaving of the sequences of the processes. -/
theorem Inv.replay_out {cfg : Cfg} {g : Ghost} {st : FState} {a : AFile} (h : Inv cfg g st a) {np : Nat}
    (hp : Replayable g st np) :
    (∃ out, st.replay np out) ∧ ∀ out, st.replay np out → ∃ l,
      Interleaved ((List.range np).map (fun r => procAW st.dsets.length np r g.mdx)) l ∧
      out = .ok ((l.map ofAW).foldl hwrite (fun _ _ _ => none)) := by
  obtain ⟨P, hP⟩ : ∃ P, P = fun r => procAW st.dsets.length np r g.mdx := ⟨_, rfl⟩
  have hproc : ∀ r < np, st.replayProc np r = .ok ((P r).map ofAW) := by
    intro r hr
    rw [hP]; exact h.replayProc hp hr
  rw [← hP]
  constructor
  · obtain ⟨l, hl⟩ := interleaved_exists _ ((List.range np).map (fun r => (P r).map ofAW)) rfl
    refine ⟨_, .inl ⟨_, l, ?_, ?_, hl, rfl⟩⟩
    · simp
    · intro r hr
      rw [hproc r (by simpa using hr)]
      simp
  · rintro out (⟨ls, l, h1, h2, h3, h4⟩ | ⟨r, hr, h1, _⟩ | ⟨r, hr, h1, _⟩)
    · have hls : ls = ((List.range np).map P).map (List.map ofAW) := by
        apply List.ext_getElem (by simp [h1])
        intro i hi hi'
        have := h2 i hi
        rw [hproc i (by omega)] at this
        simp only [Res.ok.injEq] at this
        simp [this]
      rw [hls] at h3
      obtain ⟨l', e1, e2⟩ := interleaved_map ofAW h3
      exact ⟨l', e2, by rw [h4, e1]⟩
    · rw [hproc r hr] at h1; simp at h1
    · rw [hproc r hr] at h1; simp at h1

theorem procAW_mem {n np r : Nat} {mdx : List (List (List (AW × WReq)))} {v : AW} (h : v ∈ procAW n np r mdx) :
    ∃ x ∈ mdx.flatten.flatten, v ∈ splitWrite x.1 := by
  unfold procAW at h
  obtain ⟨w, h1, h2⟩ := List.mem_flatMap.mp h
  obtain ⟨x, h3, rfl⟩ := List.mem_map.mp (byNum_mem h1)
  obtain ⟨secs, h4, h5⟩ := List.mem_flatMap.mp h3
  obtain ⟨xs, h6, h7⟩ := List.mem_flatten.mp h5
  exact ⟨x, List.mem_flatten.mpr ⟨xs, List.mem_flatten.mpr ⟨secs, h4, partOf_mem h6⟩, h7⟩, h2⟩

section
variable {cfg : Cfg} {g : Ghost} {st : FState} {a : AFile}

/-- The contents after an interleaving. -/
theorem Inv.replay_val (h : Inv cfg g st a) {np : Nat} {l : List AW}
    (hl : Interleaved ((List.range np).map (fun r => procAW st.dsets.length np r g.mdx)) l) {did : Nat} {d : DInfo}
    (hd : st.dsets[did]? = some (some d)) (x : List Nat) {k : Nat} (hk : k < d.esize) :
    (l.map ofAW).foldl hwrite (fun _ _ _ => none) did x k = lastByte l did x k := by
  have hmem : ∀ v ∈ l, ∃ y ∈ g.mdx.flatten.flatten, v ∈ splitWrite y.1 := by
    intro v hv
    have := hl.perm.mem_iff.mp hv
    obtain ⟨m, h1, h2⟩ := List.mem_flatten.mp this
    obtain ⟨r, _, rfl⟩ := List.mem_map.mp h1
    exact procAW_mem h2
  rw [foldl_hwrite]
  · simp
  · intro v hv
    obtain ⟨y, h1, h2⟩ := hmem v hv
    exact splitWrite_single (h.wokm y h1).1 h2
  · intro v hv hvd
    obtain ⟨y, h1, h2⟩ := hmem v hv
    have hyd : y.1.did = did := by rw [← splitWrite_did h2]; exact hvd
    have := ((h.wokm y h1).2.same d (by rw [hyd]; exact hd)).2
    rw [splitWrite_d h2, ← this]
    exact hk

theorem Inv.secs_val (h : Inv cfg g st a) {did : Nat} {d : DInfo}
    (hd : st.dsets[did]? = some (some d)) (x : List Nat) {k : Nat} (hk : k < d.esize) :
    lastByte (g.secs.flatten.flatMap splitWrite) did x k = lastByte g.secs.flatten did x k := by
  have hm : ∀ w ∈ g.secs.flatten, ∃ y ∈ g.mdx.flatten.flatten, y.1 = w := by
    intro w hw
    rw [g.secs_flatten] at hw
    exact List.mem_map.mp hw
  refine lastByte_flatMap_split _ _ _ _ ?_ ?_
  · intro w hw
    obtain ⟨y, h1, rfl⟩ := hm w hw
    exact (h.wokm y h1).1.sized
  · intro w hw hwd
    obtain ⟨y, h1, rfl⟩ := hm w hw
    rw [← ((h.wokm y h1).2.same d (by rw [hwd]; exact hd)).2]
    exact hk

/-- One process: the order of the metadata. -/
theorem Inv.replay_one (h : Inv cfg g st a) {l : List AW}
    (hl : Interleaved ((List.range 1).map (fun r => procAW st.dsets.length 1 r g.mdx)) l) {did : Nat} {d : DInfo}
    (hd : st.dsets[did]? = some (some d)) (x : List Nat) {k : Nat} (hk : k < d.esize) :
    lastByte l did x k = lastByte a.secs.flatten did x k := by
  have hlt : did < st.dsets.length := (List.getElem?_eq_some_iff.mp hd).1
  have e1 := interleaved_single (m := procAW st.dsets.length 1 0 g.mdx) (l := l) hl
  have hpart : ∀ secs : List (List (AW × WReq)), partOf 1 0 secs = secs := by
    intro secs
    have := partOf_all (np := 1) (by omega) secs
    simpa using this
  have e2 : (g.mdx.flatMap (fun secs => (partOf 1 0 secs).flatten)).map (·.1) = g.secs.flatten := by
    rw [g.secs_flatten]
    simp only [hpart]
    rw [List.flatMap_def, ← List.flatten_flatten]
  rw [e1, ← lastByte_filter]
  unfold procAW
  rw [filter_byNum _ hlt, e2, lastByte_filter, h.secs_val hd x hk]
  have := h.ord.2
  unfold Ghost.secs
  rw [this]

/-- Any number of processes, no races. -/
theorem Inv.replay_many (h : Inv cfg g st a) {np : Nat} (hnp : 0 < np) (hr : NoRace a.secs) {l : List AW}
    (hl : Interleaved ((List.range np).map (fun r => procAW st.dsets.length np r g.mdx)) l) {did : Nat} {d : DInfo}
    (hd : st.dsets[did]? = some (some d)) (x : List Nat) {k : Nat} (hk : k < d.esize) :
    lastByte l did x k = lastByte a.secs.flatten did x k := by
  have hlt : did < st.dsets.length := (List.getElem?_eq_some_iff.mp hd).1
  have hr' : NoRace g.secs := by
    unfold NoRace at hr ⊢
    exact hr.sublist h.ord.1
  have hfin : l.filter (coversB did x) = ((g.secs.map (fun s => s.flatMap splitWrite)).flatten).filter (coversB did x) := by
    refine order_fixed ?_ ?_ ?_
    · have e : (g.secs.map (fun s => s.flatMap splitWrite)).flatten = g.secs.flatten.flatMap splitWrite := by
        simp only [List.flatMap_def, List.map_flatten, List.flatten_flatten, List.map_map]
        rfl
      rw [e]
      refine (List.Perm.filter _ hl.perm).trans ?_
      rw [← List.flatMap_def]
      exact procAW_perm hnp g hlt x
    · intro s hs
      obtain ⟨s', h1, rfl⟩ := List.mem_map.mp hs
      obtain ⟨r, h2, h3⟩ := procAW_sub hnp hlt x h1
      refine h3.trans (List.Sublist.filter _ (hl.sub _ ?_))
      exact List.mem_map.mpr ⟨r, List.mem_range.mpr h2, rfl⟩
    · rw [List.pairwise_map]
      refine hr'.imp ?_
      intro p q hpq v hv v' hv' ⟨c1, c2⟩
      obtain ⟨w, w1, w2⟩ := List.mem_flatMap.mp hv
      obtain ⟨w', w1', w2'⟩ := List.mem_flatMap.mp hv'
      exact hpq w w1 w' w1' did x ⟨splitWrite_covers w2 (coversB_iff.mp c1), splitWrite_covers w2' (coversB_iff.mp c2)⟩
  rw [← lastByte_filter, hfin, lastByte_filter]
  have e : (g.secs.map (fun s => s.flatMap splitWrite)).flatten = g.secs.flatten.flatMap splitWrite := by
    simp only [List.flatMap_def, List.map_flatten, List.flatten_flatten, List.map_map]
    rfl
  rw [e, h.secs_val hd x hk]
  have := h.ord.2
  unfold Ghost.secs
  rw [this]

/-- Without races the order of the sections does not matter. -/
theorem Inv.secs_done (h : Inv cfg g st a) (he : a.epoch.flatten = []) (hr : NoRace a.secs)
    (hs : ∀ s ∈ a.secs, s.Sublist a.done) (did : Nat) (x : List Nat) (k : Nat) :
    lastByte a.secs.flatten did x k = lastByte a.done did x k := by
  have hfl : g.rs.flatMap RS.fl = [] := by
    rw [h.epoch, List.flatten_eq_nil_iff] at he
    rw [List.flatMap_eq_nil_iff]
    intro y hy
    have := he _ (List.mem_map.mpr ⟨y, hy, rfl⟩)
    simpa using this
  have hp : a.done.Perm a.secs.flatten := by
    have h1 := h.perm.map Prod.fst
    rw [h.done, hfl, List.append_nil, List.map_map] at h1
    refine h1.trans (List.Perm.of_eq ?_)
    have h2 := h.ord.2
    rw [← h2, ← List.map_flatten]
    rfl
  have : a.done.filter (coversB did x) = a.secs.flatten.filter (coversB did x) := by
    refine order_fixed (hp.filter _) (fun s h1 => (hs s h1).filter _) ?_
    refine hr.imp ?_
    intro p q hpq w hw w' hw' ⟨c1, c2⟩
    exact hpq w hw w' hw' did x ⟨coversB_iff.mp c1, coversB_iff.mp c2⟩
  rw [← lastByte_filter, ← this, lastByte_filter]

end

/-! ### Sections keep the order of the writes -/

theorem sublist_zip_append {done : List AW} : ∀ {es qs : List (List AW)}, (∀ s ∈ es, s.Sublist done) →
    ∀ s ∈ List.zipWith (· ++ ·) es qs, s.Sublist (done ++ qs.flatten) := by
  intro es qs h s hs
  obtain ⟨i, hi, e⟩ := List.getElem_of_mem hs
  rw [List.getElem_zipWith] at e
  rw [← e]
  exact (h _ (List.getElem_mem _)).append (List.sublist_flatten_of_mem (List.getElem_mem _))

theorem sub_flush {a : AFile} (h : ∀ s ∈ a.secs ++ a.epoch, s.Sublist a.done) :
    ∀ s ∈ a.flush.secs ++ a.flush.epoch, s.Sublist a.flush.done := by
  intro s hs
  simp only [AFile.flush, List.mem_append] at hs
  simp only [AFile.flush]
  rcases hs with hs | hs
  · exact (h s (by simp [hs])).trans (List.sublist_append_left _ _)
  · exact sublist_zip_append (fun s hs => h s (by simp [hs])) s hs

theorem sub_metaflush {a : AFile} (h : ∀ s ∈ a.secs ++ a.epoch, s.Sublist a.done) :
    ∀ s ∈ a.metaflush.secs ++ a.metaflush.epoch, s.Sublist a.metaflush.done := by
  intro s hs
  simp only [AFile.metaflush, List.mem_append] at hs ⊢
  rcases hs with (hs | hs) | hs
  · exact h s (by simp [hs])
  · exact h s (by simp [hs])
  · obtain ⟨_, _, rfl⟩ := List.mem_map.mp hs
    simp

theorem reach_sub {cfg : Cfg} {st : FState} {a : AFile} (h : Spec.Reach cfg st a) :
    ∀ s ∈ a.secs ++ a.epoch, s.Sublist a.done := by
  induction h with
  | create compact mbuf np disk h h2 =>
    intro s hs
    simp only [AFile.create, List.nil_append, List.mem_replicate] at hs
    rw [hs.2]; simp
  | addDset d _ ih => exact ih
  | setDims did dims d _ h1 h2 ih => exact ih
  | write r w _ _ _ ih => exact ih
  | flush doff _ _ _ _ ih => exact sub_flush ih
  | prepare coll doff mdoff _ _ _ _ _ _ _ ih =>
    unfold AFile.prepare
    split
    · exact sub_metaflush (sub_flush ih)
    · exact sub_metaflush ih
  | search fuel r qs _ _ _ ih => exact ih
  | reopen doff mdoff np compact mbuf gone _ _ _ _ _ _ _ _ ih =>
    intro s hs
    simp only [AFile.reopen, List.mem_append] at hs ⊢
    rcases hs with hs | hs
    · exact sub_metaflush (sub_flush ih) s (by simp [hs])
    · rw [(List.mem_replicate.mp hs).2]; simp

end Verif
