import Verif.Lemmas.Api
import Verif.Props.Select
import Verif.Props.Again
import Verif.Lemmas.ApiShare
import Verif.Lemmas.SecsPerm

/-
Sequences of calls with dataspaces are histories of the file (`Reach`).
-/

namespace Verif

open Spec (AW UW AFile UFile Calls Xfer Made Reach Fresh Small bytesAt)

/-- The user's view of a file belongs to the abstract file. -/
structure Rep (srt : List (List Nat) → List Nat) (a : AFile) (u : UFile) : Prop where
  dsets : a.dsets = u.dsets
  done : List.Forall₂ (Made srt) a.done u.done
  queue : List.Forall₂ (List.Forall₂ (Made srt)) a.queue u.queue
  epoch : ∀ p ∈ a.epoch, p.length ≤ a.done.length

theorem forall₂_flatten {α β : Type} {R : α → β → Prop} {l : List (List α)} {l' : List (List β)}
    (h : List.Forall₂ (List.Forall₂ R) l l') : List.Forall₂ R l.flatten l'.flatten := by
  induction h with
  | nil => exact .nil
  | cons h1 _ ih => exact List.rel_append h1 ih

theorem Rep.all {srt : List (List Nat) → List Nat} {a : AFile} {u : UFile} (h : Rep srt a u) :
    List.Forall₂ (Made srt) (a.done ++ a.queue.flatten) u.all := List.rel_append h.done (forall₂_flatten h.queue)

theorem Rep.len {srt : List (List Nat) → List Nat} {a : AFile} {u : UFile} (h : Rep srt a u) : a.queue.length = u.queue.length :=
  h.queue.length_eq

theorem Rep.empty {srt : List (List Nat) → List Nat} {a : AFile} {u : UFile} (h : Rep srt a u) :
    a.queue.flatten = [] ↔ u.queue.flatten = [] := by
  have := (forall₂_flatten h.queue).length_eq
  rw [← List.length_eq_zero_iff, this, List.length_eq_zero_iff]

theorem Rep.size {srt : List (List Nat) → List Nat} {a : AFile} {u : UFile} (h : Rep srt a u) : Spec.queued a = u.size := by
  unfold Spec.queued UFile.size
  congr 1
  have := forall₂_flatten h.queue
  generalize a.queue.flatten = l at this ⊢
  generalize u.queue.flatten = l' at this ⊢
  induction this with
  | nil => rfl
  | cons h1 _ ih => rw [List.map_cons, List.map_cons, ih, h1.data]

theorem Rep.flush {srt : List (List Nat) → List Nat} {a : AFile} {u : UFile} (h : Rep srt a u) : Rep srt a.flush u.flush where
  dsets := h.dsets
  done := h.all
  queue := by
    simp only [AFile.flush, UFile.flush]
    have := h.queue
    generalize a.queue = l at this ⊢
    generalize u.queue = l' at this ⊢
    induction this with
    | nil => exact .nil
    | cons _ _ ih => exact .cons .nil ih
  epoch := by
    intro p hp
    simp only [AFile.flush] at hp ⊢
    obtain ⟨i, hi, rfl⟩ := List.mem_iff_getElem.mp hp
    rw [List.length_zipWith] at hi
    rw [List.getElem_zipWith, List.length_append, List.length_append]
    have h1 := h.epoch _ (List.getElem_mem (l := a.epoch) (n := i) (by omega))
    have h2 : (a.queue[i]'(by omega)).length ≤ a.queue.flatten.length :=
      (List.sublist_flatten_of_mem (List.getElem_mem _)).length_le
    omega

theorem Rep.metaflush {srt : List (List Nat) → List Nat} {a : AFile} {u : UFile} (h : Rep srt a u) : Rep srt a.metaflush u where
  dsets := h.dsets
  done := h.done
  queue := h.queue
  epoch := by
    intro p hp
    obtain ⟨_, _, rfl⟩ := List.mem_map.mp hp
    simp

theorem forall₂_modify {α β : Type} {R : α → β → Prop} {f : α → α} {g : β → β} (hfg : ∀ x y, R x y → R (f x) (g y)) {l : List α}
    {l' : List β} (h : List.Forall₂ R l l') : ∀ r, List.Forall₂ R (l.modify r f) (l'.modify r g) := by
  induction h with
  | nil => intro r; cases r <;> exact .nil
  | cons h1 h2 ih =>
    intro r
    cases r with
    | zero => exact .cons (hfg _ _ h1) h2
    | succ r => exact .cons h1 (ih r)

theorem Rep.write {srt : List (List Nat) → List Nat} {a : AFile} {u : UFile} (h : Rep srt a u) (r : Nat) {w : AW} {v : UW}
    (hw : Made srt w v) : Rep srt (a.write r w) (u.write r v) where
  dsets := h.dsets
  done := h.done
  queue := forall₂_modify (fun _ _ h => List.rel_append h (.cons hw .nil)) h.queue r
  epoch := h.epoch

theorem Rep.num {srt : List (List Nat) → List Nat} {a : AFile} {u : UFile} (h : Rep srt a u) {r : Nat} {p q : List AW}
    (hp : a.epoch[r]? = some p) (hq : a.queue[r]? = some q) : (p ++ q).length ≤ u.all.length := by
  have h1 := h.epoch p (List.mem_of_getElem? hp)
  have h2 : q.length ≤ a.queue.flatten.length := (List.sublist_flatten_of_mem (List.mem_of_getElem? hq)).length_le
  have h3 := h.all.length_eq
  rw [List.length_append] at h3 ⊢
  omega

/-- The user's write. -/
theorem xfer_ok {d : DInfo} {f : FArg} {m : MArg} {ubuf : Nat} {xs : List (List Nat)} {as : List Nat} (h : Xfer d f m ubuf xs as)
    (did : Nat) (data : List Byte) : UW.OK ⟨did, d, (Spec.fileSpace d f).2, xs, data⟩ := ⟨h.chosen, h.supp, h.within, h.dims⟩

theorem nsel_blocks (s : Sel) : s.nsel = 0 ↔ s.blocks = [] := by
  unfold Sel.blocks Arr.view
  simp [← List.length_eq_zero_iff]

theorem nsel_zero {n : Nat} {s : Sel} {xs : List (List Nat)} (h : Spec.Exact n s.blocks xs) : s.nsel = 0 ↔ xs = [] := by
  rw [nsel_blocks]
  obtain ⟨h1, h2⟩ := h.count_le
  constructor
  · intro e
    rw [e] at h2
    exact List.length_eq_zero_iff.mp h2.symm
  · intro e
    rw [e] at h1
    exact List.length_eq_zero_iff.mp (Nat.le_zero.mp h1)

theorem forall₂_mem_left {α β : Type} {R : α → β → Prop} {l : List α} {l' : List β} (h : List.Forall₂ R l l') {x : α} (hx : x ∈ l) :
    ∃ y ∈ l', R x y := by
  induction h with
  | nil => simp at hx
  | cons h1 _ ih =>
    rcases List.mem_cons.mp hx with rfl | hx
    · exact ⟨_, by simp, h1⟩
    · obtain ⟨y, hy, h2⟩ := ih hx
      exact ⟨y, by simp [hy], h2⟩

/-- H5Dwrite of some elements. -/
theorem h5dwrite_ok {srt : List (List Nat) → List Nat} (hs : IsSort srt) {cfg : Cfg} {st : FState} {a : AFile} {u : UFile} (h : Reach cfg st a) (hr : Rep srt a u) {r did : Nat} {d : DInfo}
    {f : FArg} {m : MArg} {ubuf : Nat} (mem : Mem) {xs : List (List Nat)} {as : List Nat} (hlt : r < u.queue.length)
    (hd : u.dsets[did]? = some (some d)) (hx : Xfer d f m ubuf xs as) (hne : xs ≠ []) (hf : u.Fits did d xs)
    (ha : u.Allows cfg ⟨did, d, (Spec.fileSpace d f).2, xs, bytesAt d.esize mem as⟩) :
    ∃ st' w, st.h5dwrite srt r did f m ubuf mem = .ok st' ∧ Reach cfg st' (a.write r w) ∧
      Made srt w ⟨did, d, (Spec.fileSpace d f).2, xs, bytesAt d.esize mem as⟩ := by
  have hal : as.length = xs.length := (memAt_cases hx).1
  have hlen : (bytesAt d.esize mem as).length = d.esize * xs.length := by rw [bytesAt_length, hal]
  obtain ⟨s, st', e1, e2, e3, e4, e5⟩ := Props.select_write hs cfg h
    (u := ⟨did, d, (Spec.fileSpace d f).2, xs, bytesAt d.esize mem as⟩) (xfer_ok hx did _) (by rw [hr.dsets]; exact hd) hf.did hx.es hne
    hlen (by rw [hlen]; exact hf.data) hf.md (r := r) (by rw [hr.len]; exact hlt) (by
      intro p hp q hq
      have := hr.num hp hq
      have := hf.num
      omega) (by
      intro w hw he h1
      rcases ha.enc he with ho | ⟨h2, h3⟩
      · have := made_one hs hw ho
        omega
      refine Spec.Encodable.expressible ⟨made_extent hs hw, fun b hb => ((made_exact hs hw).shape b hb).2.2, ?_,
        by rw [hw.d]; exact h2⟩
      rcases h3 with h3 | ⟨h3, h4⟩
      · exact .inl (made_width hs hw h3)
      · exact .inr ⟨(confined_iff hs hw).mpr h3, made_width hs hw h4⟩) (by
      intro w hw h1 h2 p hp q hq w' hw' l1 l2
      have hin : w' ∈ a.done ++ a.queue.flatten := by
        rcases List.mem_append.mp hw' with hw' | hw'
        · exact List.mem_append_left _ ((reach_subset h).2 p (List.mem_of_getElem? hp) w' hw')
        · exact List.mem_append_right _ (List.mem_flatten.mpr ⟨q, List.mem_of_getElem? hq, hw'⟩)
      obtain ⟨v, hv, hmv⟩ := forall₂_mem_left hr.all hin
      rcases ha.mix h1 h2 v hv with ho | ho | ho
      · have := made_one hs hw ho
        omega
      · have := made_one hs hmv ho
        omega
      · rw [confined_iff hs hw, confined_iff hs hmv, ho])
  refine ⟨st', _, ?_, e4, e5⟩
  obtain ⟨g, inv⟩ := reach_inv h
  have hex := made_exact hs e5
  simp only at e1 e2 e3 hex
  have hn : s.nsel ≠ 0 := fun h0 => hne ((nsel_zero hex).mp h0)
  unfold FState.h5dwrite
  rw [inv.dsets, hr.dsets, hd]
  simp only
  rw [resolve_eq, e1, Res.ok_bind, if_neg hn, hex.count_le.2, takeBuf_ok hs hx hne, Res.ok_bind, e3, Res.ok_bind, e2]
  rfl

theorem searches_reach {cfg : Cfg} {st st' : FState} {a : AFile} (h : Reach cfg st a) (he : a.epoch.flatten = [])
    (hs : st.Searches st') : Reach cfg st' a ∧ Props.SameFile st st' := by
  induction hs with
  | refl => exact ⟨h, ⟨rfl, rfl, rfl, rfl, rfl, rfl, rfl, rfl, rfl, rfl⟩⟩
  | step fuel r qs _ h2 ih =>
    obtain ⟨i1, i2⟩ := ih
    obtain ⟨j, _⟩ := Props.search_same h2
    exact ⟨.search fuel r qs i1 he h2, ⟨j.disk.trans i2.disk, j.lds.trans i2.lds, j.mds.trans i2.mds, j.ranks.trans i2.ranks,
      j.dsets.trans i2.dsets, j.saved.trans i2.saved, j.dirty.trans i2.dirty,
      j.conf.1.trans i2.conf.1, j.conf.2.1.trans i2.conf.2.1, j.conf.2.2.trans i2.conf.2.2⟩⟩

theorem rep_prepare {a : AFile} {cfg : Cfg} {st : FState} (h : Reach cfg st a) {coll : Bool} (hc : Spec.SeesQueue coll a) :
    a.prepare coll = a.flush.metaflush := by
  obtain ⟨g, inv⟩ := reach_inv h
  unfold AFile.prepare
  split
  · rfl
  · rename_i hb
    simp only [Bool.or_eq_true, decide_eq_true_eq, not_or] at hb
    rw [flush_empty (hc.resolve_left hb.1 |>.resolve_left hb.2) (by rw [inv.epoch, inv.queue, List.length_map, List.length_map])]

/-- Sequences of calls are histories. -/
theorem calls_reach {srt : List (List Nat) → List Nat} (hs : IsSort srt) {cfg : Cfg} {st : FState} {u : UFile} (h : Calls srt cfg st u) : ∃ a, Reach cfg st a ∧ Rep srt a u := by
  induction h with
  | create compact mbuf np disk h0 h1 =>
    refine ⟨_, .create compact mbuf np disk h0 h1, rfl, .nil, ?_, ?_⟩
    · simp only [AFile.create]
      clear h0 h1
      induction np with
      | zero => exact .nil
      | succ n ih => exact .cons .nil ih
    · intro p hp
      rw [(List.mem_replicate.mp hp).2]
      simp
  | dset d _ ih =>
    obtain ⟨a, h1, h2⟩ := ih
    exact ⟨_, .addDset d h1, ⟨by simp only [AFile.addDset]; rw [h2.dsets], h2.done, h2.queue, h2.epoch⟩⟩
  | extent did dims d _ hd hl ih =>
    obtain ⟨a, h1, h2⟩ := ih
    exact ⟨_, .setDims did dims d h1 (by rw [h2.dsets]; exact hd) hl,
      ⟨by simp only [AFile.setDims]; rw [h2.dsets], h2.done, h2.queue, h2.epoch⟩⟩
  | write r did d f m ubuf mem xs as _ hlt hd hx hne hf hal hok ih =>
    obtain ⟨a, h1, h2⟩ := ih
    obtain ⟨st', w, e1, e2, e3⟩ := h5dwrite_ok hs h1 h2 mem hlt hd hx hne hf hal
    rw [e1] at hok
    cases hok
    exact ⟨_, e2, h2.write r e3⟩
  | flush doff _ hf hok hsm ih =>
    obtain ⟨a, h1, h2⟩ := ih
    exact ⟨_, .flush doff h1 hf hok hsm, h2.flush⟩
  | read asked doff mdoff _ hq hf hf' hd hok hsm hse ih =>
    obtain ⟨a, h1, h2⟩ := ih
    have hq' : a.queue.length = 1 ∨ a.queue.flatten = [] := by rw [h2.len, h2.empty]; exact hq
    have h3 := Reach.prepare fileMode doff mdoff h1 hf hf' (by rw [h2.size]; exact hd) (.inr (hq'.imp_right .inr)) hok hsm
    obtain ⟨h4, _⟩ := searches_reach h3 (Props.prepared_epoch _ _) hse
    refine ⟨_, h4, ?_⟩
    rw [rep_prepare h1 (.inr hq')]
    exact h2.flush.metaflush
  | reopen doff mdoff np compact mbuf gone _ hf hf' hd h0 h0' hok hsm ih =>
    obtain ⟨a, h1, h2⟩ := ih
    refine ⟨_, .reopen doff mdoff np compact mbuf gone h1 hf hf' (by rw [h2.size]; exact hd) h0 h0' hok hsm, ?_, h2.all, ?_, ?_⟩
    · simp only [AFile.reopen, AFile.flush, AFile.metaflush]
      rw [h2.dsets]
    · simp only [AFile.reopen]
      clear h0 h0' hok hsm
      induction np with
      | zero => exact .nil
      | succ n ih => exact .cons .nil ih
    · intro p hp
      rw [(List.mem_replicate.mp hp).2]
      simp

theorem pairwise_secs {cfg : Cfg} {st : FState} {a : AFile} (h : Reach cfg st a) (he : a.epoch.flatten = []) {P : AW → AW → Prop}
    (hsym : ∀ x y, P x y → P y x) (hp : a.done.Pairwise P) : ∀ p ∈ a.secs, p.Pairwise P := by
  intro p hp'
  obtain ⟨g, inv⟩ := reach_inv h
  have := ((Inv.secs_perm inv he).pairwise_iff (fun {x y} => hsym x y)).mpr hp
  exact this.sublist (List.sublist_flatten_of_mem hp')

/-- The order of a write and the write that first had its selection. -/
theorem origin_pair {cfg : Cfg} {prev post : List AW} {x y : AW} {P : AW → AW → Prop} (ho : Spec.Origin cfg prev x y)
    (hp : (prev ++ y :: post).Pairwise P) : P x y ∧ Spec.SameEntry cfg x y := by
  obtain ⟨p, q, rfl, h1, _⟩ := ho
  exact ⟨(List.pairwise_append.mp hp).2.2 x (by simp) y (by simp), h1⟩

/-- What the index needs. -/
theorem rep_readable {srt : List (List Nat) → List Nat} (hs : IsSort srt) {cfg : Cfg} {st : FState} {a : AFile} (h : Reach cfg st a)
    (he : a.epoch.flatten = []) {us : List UW} (hu : List.Forall₂ (Made srt) a.done us) {compact : Bool} {did : Nat} {q : List (List UW)}
    (hi : UFile.Indexed cfg compact did ⟨a.dsets, us, q⟩) (hq : q.flatten = []) (hpr : Spec.present a.dsets did = true) :
    Spec.Readable cfg compact a did := by
  have hall : (⟨a.dsets, us, q⟩ : UFile).all = us := by
    unfold UFile.all
    rw [hq, List.append_nil]
  obtain ⟨i1, i2, i3⟩ := hi
  rw [hall] at i1 i2 i3
  have l1 : cfg.share = true → ∀ p ∈ a.secs, p.Pairwise (fun x y => Spec.SameSel x y ∨ Spec.SameSel y x →
      compact = false ∨ x.did = did ∨ y.did = did → (Spec.present a.dsets x.did ↔ Spec.present a.dsets y.did)) := by
    intro hsh
    have h1 : a.done.Pairwise (fun x y => Spec.SameSel x y ∨ Spec.SameSel y x → compact = false ∨ x.did = did ∨ y.did = did →
        (Spec.present a.dsets x.did ↔ Spec.present a.dsets y.did)) :=
      pairwise_made (fun x y x' y' hx hy h hxy hw => by
        rw [hx.did, hy.did] at hw ⊢
        refine h (hxy.elim (same_cells hs hx hy) (fun hyx => ?_)) hw
        exact same_cells_symm (same_cells hs hy hx hyx)) hu (i1 hsh)
    exact pairwise_secs h he (fun x y hxy hyx hw => (hxy hyx.symm (hw.imp_right Or.symm)).symm) h1
  refine ⟨fun hc did' hp' hsh p hp prev y post e hyd x ho => ?_, fun hc hsh p hp prev y post e hyd x ho => ?_,
    fun hc hsh p hp prev y post e hyd x ho => ?_, fun hc p hp w hw _ => ?_⟩
  · obtain ⟨k1, k2⟩ := origin_pair ho (e ▸ l1 hsh p hp)
    exact (k1 (.inl k2.sel) (.inl hc)).mpr (by rw [hyd]; exact hp')
  · have h1 : a.done.Pairwise (fun x y => Spec.SameSel x y ∨ Spec.SameSel y x → x.did = did ∨ y.did = did →
        x.d.esize = y.d.esize ∨ (x.bs.length ≤ 1 ∧ y.bs.length ≤ 1)) :=
      pairwise_made (fun x y x' y' hx hy h hxy hw => by
        rw [hx.d, hy.d]
        rw [hx.did, hy.did] at hw
        have := h (hxy.elim (same_cells hs hx hy) (fun hyx => same_cells_symm (same_cells hs hy hx hyx))) hw
        exact this.imp id (fun ho => ⟨made_one hs hx ho.1, made_one hs hy ho.2⟩)) hu (i2 hsh hc)
    have h2 := pairwise_secs h he (fun x y hxy hyx hw => (hxy hyx.symm hw.symm).imp Eq.symm And.symm) h1 p hp
    obtain ⟨k1, k2⟩ := origin_pair ho (e ▸ h2)
    refine (k1 (.inl k2.sel) (.inr hyd)).imp id (fun h4 => ?_)
    obtain ⟨g, inv⟩ := reach_inv h
    have hyf := List.mem_flatten.mpr ⟨p, hp, (by rw [e]; simp : y ∈ p)⟩
    rw [← inv.ord.2] at hyf
    obtain ⟨z', hz', hy'⟩ := List.mem_flatten.mp hyf
    obtain ⟨z, hz, rfl⟩ := List.mem_map.mp hz'
    obtain ⟨t, ht, rfl⟩ := List.mem_map.mp hy'
    have := List.length_pos_iff.mpr (inv.wokm t (List.mem_flatten.mpr ⟨z, hz, ht⟩)).1.sel.ne
    omega
  · have h1 : a.done.Pairwise (fun x y => Spec.Confined x → Spec.Confined y → x.did = did ∨ y.did = did → x.bs ≠ y.bs) :=
      pairwise_made (fun x y x' y' hx hy h c1 c2 hw hb => by
        rw [confined_iff hs hx] at c1
        rw [confined_iff hs hy] at c2
        rw [hx.did, hy.did] at hw
        exact h c1 c2 hw (cells_of_blocks hs hx hy hb)) hu (i3 hsh hc)
    have h2 := pairwise_secs h he (fun x y hxy c1 c2 hw hb => hxy c2 c1 hw.symm hb.symm) h1 p hp
    obtain ⟨k1, k2⟩ := origin_pair ho (e ▸ l1 hsh p hp)
    obtain ⟨k3, _⟩ := origin_pair ho (e ▸ h2)
    exact ⟨(k1 (.inl k2.sel) (.inr (.inr hyd))).mpr (by rw [hyd]; exact hpr), fun hh => k3 (k2.kind.mpr hh.1) hh.1 (.inr hyd) hh.2⟩
  · intro _
    exact made_heads hs hu w ((reach_subset h).1 p hp w hw)

/-- H5Dread from a file whose metadata is complete. -/
theorem h5dread_ok {srt : List (List Nat) → List Nat} (hs : IsSort srt) {cfg : Cfg}
    {st : FState} {a : AFile} (h : Reach cfg st a) (he : a.epoch.flatten = []) {us : List UW}
    (hu : List.Forall₂ (Made srt) a.done us) {r did : Nat} (hidx : Spec.Readable cfg st.compact a did) {d : DInfo} {f : FArg} {m : MArg} {ubuf : Nat} {xs : List (List Nat)}
    {as : List Nat} (hlt : r < a.queue.length) (hd : a.dsets[did]? = some (some d)) (hx : Xfer d f m ubuf xs as)
    (hm : st.mbuf = none ∨ us ≠ []) : Spec.GetsAll srt st us r did d f m ubuf xs as := by
  obtain ⟨g, inv⟩ := reach_inv h
  obtain ⟨s, e1, e2, hex, hso⟩ := select_ok hs hx.chosen hx.supp
  rw [← resolve_eq] at e1
  have hal : as.length = xs.length := (memAt_cases hx).1
  by_cases hne : xs = []
  · have h0 : s.nsel = 0 := (nsel_zero hex).mpr hne
    refine fun xbuf => ⟨0, fun fuel _ fill mem => ?_⟩
    have key : ∀ out, st.h5dread srt fuel r did f m ubuf xbuf fill mem out ↔ out = .ok mem := by
      intro out
      unfold FState.h5dread
      rw [inv.dsets, hd]
      simp only [e1, h0, if_true]
    refine ⟨⟨mem, (key _).mpr rfl⟩, fun out ho => ⟨mem, (key _).mp ho, ?_, fun _ _ _ => rfl⟩⟩
    intro i x p j hi
    rw [hne] at hi
    simp at hi
  have h0 : s.nsel ≠ 0 := fun h0 => hne ((nsel_zero hex).mp h0)
  have hm' : st.mbuf = none ∨ a.done ≠ [] := by
    refine hm.imp_right (fun hn he => ?_)
    rw [he] at hu
    cases hu
    exact hn rfl
  have main : ∀ xb, Spec.ReturnsElems st r ⟨did, d, s.blocks, xb⟩ xs us := by
    intro xb
    obtain ⟨q1, q2⟩ := select_req (q := ⟨did, d, s.blocks, xb⟩) hex hso hx.within hx.dims st.compact hd hx.es
    exact returns_elems hs hu hex ((reach_read h (hidx.served (by simp)) q1 hlt he hm').1 q2)
  intro xbuf
  obtain ⟨n, main⟩ := main (if wholeMem (m.resolve d f) then ubuf else xbuf)
  refine ⟨n, fun fuel hfu fill mem => ?_⟩
  obtain ⟨⟨mem1, m1⟩, m2⟩ := main fuel hfu fill mem
  have key : ∀ out, st.h5dread srt fuel r did f m ubuf xbuf fill mem out ↔
      ∃ o, st.reads fuel r fill [⟨did, d, s.blocks, if wholeMem (m.resolve d f) then ubuf else xbuf⟩] mem o ∧
        out = o.bind (fun mem1 => (putBuf srt xbuf ubuf xs.length d.esize (m.resolve d f) mem1).bind (fun mem2 =>
          (s.destroy d.ndim).bind (fun _ => .ok mem2))) := by
    intro out
    unfold FState.h5dread
    rw [inv.dsets, hd]
    simp only [e1, h0, if_false, hex.count_le.2]
    rfl
  constructor
  · obtain ⟨mem2, p1, _⟩ := putBuf_ok hs hx hne xbuf mem1
    refine ⟨mem2, (key _).mpr ⟨_, m1, ?_⟩⟩
    simp only [Res.bind, p1, e2]
  · intro out ho
    obtain ⟨o, ho2, rfl⟩ := (key _).mp ho
    obtain ⟨mem1, rfl, v1, v2⟩ := m2 o ho2
    obtain ⟨mem2, p1, p2, p3⟩ := putBuf_ok hs hx hne xbuf mem1
    refine ⟨mem2, by simp only [Res.bind, p1, e2], ?_, ?_⟩
    · intro i x p j hi hp hj
      obtain ⟨hil, rfl⟩ := List.getElem?_eq_some_iff.mp hi
      have := v1 i hil j hj
      rw [p2 i p j hp hj, this]
      unfold Spec.expectedElem
      constructor
      · intro v hv
        simp only [hv]
      · intro hv fv v hfv hv'
        simp only [hv, hfv, hv', Option.getD_some]
    · intro q hq1 hq2
      rw [p3 q hq1]
      refine v2 q ?_
      rintro ⟨hq3, hq4⟩
      simp only at hq3 hq4
      obtain ⟨_, ⟨hw, ha⟩ | ⟨dims, sel, ys, hc1, hc2, _⟩⟩ := memAt_cases hx
      · rw [if_pos hw] at hq3 hq4
        have hes := hx.es
        have hlt : (q - ubuf) / d.esize < xs.length := by
          rw [Nat.div_lt_iff_lt_mul hes, Nat.mul_comm]
          omega
        have hdm := Nat.div_add_mod (q - ubuf) d.esize
        have hml := Nat.mod_lt (q - ubuf) hes
        refine hq1 (ubuf + d.esize * ((q - ubuf) / d.esize)) ?_ (by omega)
        rw [ha]
        exact List.mem_map.mpr ⟨_, List.mem_range.mpr hlt, rfl⟩
      · have hwm : wholeMem (m.resolve d f) = false := by
          rw [hc1]
          unfold wholeMem
          split
          · rename_i e; cases e
          · rename_i e
            cases e
            exact (hc2 _ rfl).elim
          · rfl
        rw [hwm] at hq3 hq4
        exact hq2 ⟨hq3, hq4⟩

end Verif
