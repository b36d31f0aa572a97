import Verif.Spec.RecordedRun
import Verif.Props.Recorded

/-
C95 for whole histories: every write may span whole dimensions.
-/

namespace Verif.Props

open Spec (AW AFile WriteOK MayWrite Reach ReachAny Confined InExtent NonEmpty recorded kept Skips AnyWrite skipOf recordedAs keptOf)

theorem skipOf_skips (w : AW) : Skips (skipOf w) w := by
  unfold skipOf
  by_cases h : Confined w
  · rw [if_pos h]; exact .inl ⟨rfl, h⟩
  · rw [if_neg h]; exact .inr ⟨rfl, h⟩

theorem recordedAs_one {w : AW} (h : w.bs.length ≤ 1) : recordedAs w = w := if_neg (by omega)

theorem recordedAs_many {w : AW} (h : 1 < w.bs.length) : recordedAs w = recorded (skipOf w) w := if_pos h

theorem recordedAs_blocks (w : AW) : (recordedAs w).bs.length = w.bs.length := by
  unfold recordedAs
  split
  · simp [recorded]
  · rfl

theorem recordedAs_data (w : AW) : (recordedAs w).data = w.data := by
  unfold recordedAs
  split <;> rfl

/-- Blocks inside the extent, if they are encoded. -/
def Lies (w : AW) : Prop :=
  1 < w.bs.length → Spec.SelOK w.d w.bs ∧ (∀ b ∈ w.bs, InExtent w.d.dims b) ∧ ∀ b ∈ w.bs, NonEmpty b

theorem recordedAs_confined {w : AW} (h : Lies w) : Confined (recordedAs w) ↔ Confined w := by
  unfold recordedAs
  split
  · rename_i h1
    obtain ⟨h2, h3, h4⟩ := h h1
    exact rec_confined (skipOf_skips w) h2 h3 h4
  · rfl

theorem recordedAs_effect {w : AW} (h : Lies w) :
    (recordedAs w).did = (keptOf w).did ∧ ∀ x j, Spec.cellByte (recordedAs w) x j = Spec.cellByte (keptOf w) x j := by
  unfold recordedAs keptOf
  split
  · rename_i h1
    obtain ⟨h2, h3, h4⟩ := h h1
    exact ⟨rfl, C95_effect (skipOf_skips w) h2 h3 h4⟩
  · exact ⟨rfl, fun _ _ => rfl⟩

/-! ### Images of files -/

section
variable (f : AW → AW)

theorem image_create (np : Nat) : (AFile.create np).image f = AFile.create np := by
  simp [AFile.image, AFile.create]

theorem image_flatten (l : List (List AW)) : (l.map (List.map f)).flatten = l.flatten.map f := by
  rw [List.map_flatten]

theorem image_write (r : Nat) (w : AW) (a : AFile) : (a.write r w).image f = (a.image f).write r (f w) := by
  simp only [AFile.image, AFile.write, AFile.mk.injEq, true_and, and_true]
  apply List.ext_getElem?
  intro i
  simp only [List.getElem?_map, List.getElem?_modify]
  by_cases h : r = i
  · subst h
    cases a.queue[r]? <;> simp
  · cases a.queue[i]? <;> simp [h]

theorem image_flush (a : AFile) : a.flush.image f = (a.image f).flush := by
  simp only [AFile.image, AFile.flush, List.map_append, image_flatten, List.map_map, AFile.mk.injEq, true_and, and_true]
  refine ⟨?_, ?_⟩
  · refine List.map_congr_left fun _ _ => rfl
  · rw [List.map_zipWith, List.zipWith_map]
    congr 1
    funext x y
    simp

theorem image_metaflush (a : AFile) : a.metaflush.image f = (a.image f).metaflush := by
  simp only [AFile.image, AFile.metaflush, List.map_append, List.map_map, AFile.mk.injEq, true_and, and_true]
  refine List.map_congr_left fun _ _ => rfl

theorem image_reopen (np : Nat) (gone : Nat → Bool) (a : AFile) : (a.reopen np gone).image f = (a.image f).reopen np gone := by
  simp [AFile.image, AFile.reopen]

theorem image_prepare (coll : Bool) (a : AFile) : (a.prepare coll).image f = (a.image f).prepare coll := by
  have hl : (a.image f).queue.length = a.queue.length := by simp [AFile.image]
  unfold AFile.prepare
  rw [image_metaflush, hl]
  split
  · rw [image_flush]
  · rfl

theorem image_queued (hf : ∀ w, (f w).data = w.data) (a : AFile) : Spec.queued (a.image f) = Spec.queued a := by
  unfold Spec.queued AFile.image
  simp only [image_flatten, List.map_map]
  congr 1
  refine List.map_congr_left fun w _ => ?_
  simp [hf]

theorem image_row {l : List (List AW)} {r : Nat} {p : List AW} (h : (l.map (List.map f))[r]? = some p) :
    ∃ q, l[r]? = some q ∧ p = q.map f := by
  rw [List.getElem?_map] at h
  cases hq : l[r]? with
  | none => simp [hq] at h
  | some q => rw [hq] at h; exact ⟨q, rfl, by simpa using h.symm⟩

end

/-! ### Histories -/

/-- The blocks of all writes of a history lie inside the extents. -/
theorem any_lies {cfg : Cfg} {st : FState} {a : AFile} (h : ReachAny cfg st a) :
    ∀ w ∈ a.done ++ a.queue.flatten ++ a.epoch.flatten, Lies w := by
  have hw : ∀ (a : AFile) r w, (∀ w ∈ a.done ++ a.queue.flatten ++ a.epoch.flatten, Lies w) → Lies w →
      ∀ v ∈ (a.write r w).done ++ (a.write r w).queue.flatten ++ (a.write r w).epoch.flatten, Lies v := by
    intro a r w ih hl v hv
    simp only [AFile.write, List.mem_append, List.mem_flatten] at hv
    rcases hv with (hv | ⟨p, hp, hv⟩) | ⟨p, hp, hv⟩
    · exact ih v (by simp [hv])
    · obtain ⟨i, hi⟩ := List.mem_iff_getElem?.mp hp
      rw [List.getElem?_modify] at hi
      cases hq : a.queue[i]? with
      | none => simp [hq] at hi
      | some q =>
        have hm : ∀ u ∈ q, Lies u := fun u hu =>
          ih u (by simp only [List.mem_append, List.mem_flatten]; exact .inl (.inr ⟨q, List.mem_of_getElem? hq, hu⟩))
        rw [hq] at hi
        simp only [Option.map_eq_map, Option.map_some, Option.some.injEq] at hi
        split at hi
        · rw [← hi] at hv
          rcases List.mem_append.mp hv with hv | hv
          · exact hm v hv
          · rw [List.mem_singleton.mp hv]; exact hl
        · rw [← hi] at hv; exact hm v hv
    · exact ih v (by simp only [List.mem_append, List.mem_flatten]; exact .inr ⟨p, hp, hv⟩)
  have hfl : ∀ (a : AFile), (∀ w ∈ a.done ++ a.queue.flatten ++ a.epoch.flatten, Lies w) →
      ∀ v ∈ a.flush.done ++ a.flush.queue.flatten ++ a.flush.epoch.flatten, Lies v := by
    intro a ih v hv
    simp only [AFile.flush, List.mem_append] at hv
    rcases hv with ((hv | hv) | hv) | hv
    · exact ih v (by simp [hv])
    · exact ih v (by simp only [List.mem_append]; exact .inl (.inr hv))
    · simp at hv
    · obtain ⟨p, hp, hv⟩ := List.mem_flatten.mp hv
      obtain ⟨i, hi⟩ := List.mem_iff_getElem?.mp hp
      rw [List.getElem?_zipWith_eq_some] at hi
      obtain ⟨x, y, hx, hy, rfl⟩ := hi
      have hx := List.mem_of_getElem? hx
      have hy := List.mem_of_getElem? hy
      rcases List.mem_append.mp hv with hv | hv
      · exact ih v (by simp only [List.mem_append, List.mem_flatten]; exact .inr ⟨x, hx, hv⟩)
      · exact ih v (by simp only [List.mem_append, List.mem_flatten]; exact .inl (.inr ⟨y, hy, hv⟩))
  have hmf : ∀ (a : AFile), (∀ w ∈ a.done ++ a.queue.flatten ++ a.epoch.flatten, Lies w) →
      ∀ v ∈ a.metaflush.done ++ a.metaflush.queue.flatten ++ a.metaflush.epoch.flatten, Lies v := by
    intro a ih v hv
    refine ih v ?_
    simp only [AFile.metaflush, List.mem_append] at hv ⊢
    rcases hv with hv | hv
    · exact .inl hv
    · simp at hv
  induction h with
  | create => simp [AFile.create]
  | addDset d _ ih => exact ih
  | setDims did dims d _ _ _ ih => exact ih
  | writeOne r w _ _ h1 _ ih => exact hw _ _ _ ih (fun h => by omega)
  | write r w _ h1 _ _ ih => exact hw _ _ _ ih (fun _ => ⟨h1.sel, h1.inside, h1.full⟩)
  | flush doff _ _ _ _ ih => exact hfl _ ih
  | @prepare _ a _ coll _ _ _ _ _ _ _ _ _ ih =>
    unfold AFile.prepare
    split
    · exact hmf _ (hfl _ ih)
    · exact hmf _ ih
  | search _ _ _ _ _ _ ih => exact ih
  | reopen doff mdoff np compact mbuf gone _ _ _ _ _ _ _ _ ih =>
    have := hmf _ (hfl _ ih)
    intro v hv
    refine this v ?_
    simp only [AFile.reopen, List.mem_append] at hv ⊢
    rcases hv with (hv | hv) | hv
    · exact .inl (.inl hv)
    · simp at hv
    · simp at hv

/-- **C95.** With encoded selections: any history of writes inside the extents, flushes, reads and reopenings leaves the file
as the history of the recorded writes does. -/
theorem C95_history {cfg : Cfg} (he : cfg.selEncode = true) {st : FState} {a : AFile} (h : ReachAny cfg st a) :
    Reach cfg st (a.image recordedAs) := by
  have hmix : ∀ {st a}, ReachAny cfg st a → ∀ (r : Nat) (w : AW) (p q : List AW), (a.image recordedAs).epoch[r]? = some p →
      (a.image recordedAs).queue[r]? = some q → ∃ p' q' : List AW, a.epoch[r]? = some p' ∧ a.queue[r]? = some q' ∧
        (p ++ q).length = (p' ++ q').length ∧ ((∀ w' ∈ p' ++ q', 1 < w'.bs.length → (Confined w ↔ Confined w')) →
          ∀ w' ∈ p ++ q, 1 < w'.bs.length → (Confined w ↔ Confined w')) := by
    intro st a ha r w p q hp hq
    obtain ⟨p', hp', rfl⟩ := image_row recordedAs hp
    obtain ⟨q', hq', rfl⟩ := image_row recordedAs hq
    refine ⟨p', q', hp', hq', by simp, fun hc w' hw' hl => ?_⟩
    rw [← List.map_append] at hw'
    obtain ⟨v, hv, rfl⟩ := List.mem_map.mp hw'
    rw [recordedAs_blocks] at hl
    rw [hc v hv hl, recordedAs_confined]
    refine any_lies ha v ?_
    simp only [List.mem_append, List.mem_flatten] at hv ⊢
    rcases hv with hv | hv
    · exact .inr ⟨p', List.mem_of_getElem? hp', hv⟩
    · exact .inl (.inr ⟨q', List.mem_of_getElem? hq', hv⟩)
  induction h with
  | create compact mbuf np disk h1 h2 => rw [image_create]; exact .create compact mbuf np disk h1 h2
  | addDset d _ ih => exact .addDset d ih
  | setDims did dims d _ h1 h2 ih => exact .setDims did dims d ih h1 h2
  | @writeOne st a st' r w ha h1 h2 h3 ih =>
    rw [image_write, recordedAs_one h2]
    refine Reach.write r w ih ⟨h1.ok, h1.dset, fun _ _ _ _ _ _ _ _ hl => by omega, fun p hp q hq => ?_⟩ h3
    obtain ⟨p', q', e1, e2, e3, _⟩ := hmix ha r w p q hp hq
    rw [e3]
    exact h1.num p' e1 q' e2
  | @write st a st' r w ha h1 h2 h3 ih =>
    rw [image_write, recordedAs_many h1.several]
    have h4 : AnyWrite cfg (a.image recordedAs) r w := by
      refine { h1 with mix := fun hs p hp q hq => ?_, num := fun p hp q hq => ?_, dset := h1.dset }
      · obtain ⟨p', q', e1, e2, _, e4⟩ := hmix ha r w p q hp hq
        exact e4 (h1.mix hs p' e1 q' e2)
      · obtain ⟨p', q', e1, e2, e3, _⟩ := hmix ha r w p q hp hq
        rw [e3]
        exact h1.num p' e1 q' e2
    obtain ⟨st2, g1, g2⟩ := C95_write he ih h4 (skipOf_skips w) (by simpa [AFile.image] using h2)
    rw [h3, Res.ok.injEq] at g1
    rw [g1]
    exact g2
  | flush doff _ h1 h2 h3 ih => rw [image_flush]; exact .flush doff ih h1 h2 h3
  | prepare coll doff mdoff _ h1 h2 h3 h4 h5 h6 ih =>
    rw [image_prepare]
    refine .prepare coll doff mdoff ih h1 h2 (by rw [image_queued _ recordedAs_data]; exact h3) ?_ h5 h6
    unfold AFile.image
    rw [image_flatten, image_flatten, List.length_map, List.map_eq_nil_iff, List.map_eq_nil_iff]
    exact h4
  | search fuel r qs _ h1 h2 ih =>
    refine Reach.search fuel r qs ih ?_ h2
    unfold AFile.image
    rw [image_flatten, List.map_eq_nil_iff]
    exact h1
  | reopen doff mdoff np compact mbuf gone _ h1 h2 h3 h4 h5 h6 h7 ih =>
    rw [image_reopen, image_metaflush, image_flush]
    exact .reopen doff mdoff np compact mbuf gone ih h1 h2 (by rw [image_queued _ recordedAs_data]; exact h3) h4 h5 h6 h7

/-- **C95, partial: histories that can be indexed.** With encoded selections: after any history of writes inside the extents,
whether their blocks span whole dimensions or not, a read returns for every cell what is left by the last write of which
something is kept there. -/
theorem C95_readback_partial {cfg : Cfg} (he : cfg.selEncode = true) {st : FState} {a : AFile} (h : ReachAny cfg st a)
    {coll : Bool} (hcoll : Spec.SeesQueue coll a) {doff mdoff : Nat} (hf : Spec.Fresh st doff) (hf' : Spec.Fresh st mdoff)
    (hd : doff + Spec.queued a ≤ mdoff) {qs : List RReq}
    (hi : Spec.Served cfg st.compact (a.image recordedAs).flush.metaflush qs)
    (hq : Spec.ReqsOK st.compact a.dsets qs) (hv : Spec.Viewable qs) {r : Nat}
    (hr : r < a.queue.length) (hm : st.mbuf = none ∨ a.done ++ a.queue.flatten ≠ []) :
    ∃ st1, st.prepare coll doff mdoff = .ok st1 ∧
      (Spec.Small st1 → Spec.Returns st1 r qs ((a.done ++ a.queue.flatten).map keptOf)) := by
  obtain ⟨st1, p1, p2⟩ := C02_readback_partial cfg (C95_history he h) (coll := coll) (doff := doff) (mdoff := mdoff) (qs := qs)
    (r := r) (by
      unfold Spec.SeesQueue AFile.image
      rw [image_flatten, List.length_map, List.map_eq_nil_iff]
      exact hcoll) hf hf'
    (by rw [image_queued _ recordedAs_data]; exact hd) hi hq hv (by simpa [AFile.image] using hr)
    (by
      unfold AFile.image
      rw [image_flatten, ← List.map_append, Ne, List.map_eq_nil_iff]
      exact hm)
  refine ⟨st1, p1, fun hsm => Returns.congr ?_ (p2 hsm)⟩
  intro q _ c j _
  simp only [AFile.image, image_flatten, ← List.map_append]
  refine lastByte_same ?_ _ _ _
  refine List.forall₂_map_left_iff.mpr (List.forall₂_map_right_iff.mpr (List.forall₂_same.mpr fun w hw => ?_))
  exact recordedAs_effect (any_lies h w (List.mem_append_left _ hw))

/-! ### A case -/

theorem rx_skipOf : skipOf rxW = 0 := if_neg (fun h => by have := h.1; simp [rxW, rwD] at this)

theorem rx_recordedAs : recordedAs rxW = recorded 0 rxW := by
  rw [recordedAs_many (by decide), rx_skipOf]

/-- Row 0 and two cells of row 2 are written, and nothing else: kept are the two cells, with the first two values. -/
example : [rxW].map keptOf = [⟨0, rwD, [⟨[2, 0], [1, 2]⟩], [1, 2, 3, 4, 5, 6]⟩] := by
  have : keptOf rxW = kept 0 rxW := by
    unfold keptOf
    rw [if_pos (by decide), rx_skipOf]
  rw [List.map_singleton, this]
  decide

/-- Hypotheses of `C95_history` and `C95_readback_partial`: a history with a write that loses a row. -/
example (share compact : Bool) : ∃ st a, ReachAny ⟨true, share⟩ st a ∧ a.queue.flatten = [rxW] ∧ Spec.SeesQueue true a ∧
    Spec.Fresh st 1000 ∧ Spec.Fresh st 2000 ∧ 1000 + Spec.queued a ≤ 2000 ∧
    Spec.Served ⟨true, share⟩ st.compact (a.image recordedAs).flush.metaflush [rxQ] ∧
    Spec.ReqsOK st.compact a.dsets [rxQ] ∧ Spec.Viewable [rxQ] ∧ 0 < a.queue.length := by
  have hq : Spec.ReqsOK compact [some rwD] [rxQ] := by
    refine ⟨by simp [rxQ], by simp [rxQ, rwD], by simp [rxQ, rwD, DInfo.ndim], by simp [rxQ], by simp [rxQ], by simp [rxQ],
      List.pairwise_singleton _ _, List.pairwise_singleton _ _⟩
  have h0 : ReachAny ⟨true, share⟩ (rwFile share compact) ((AFile.create 1).addDset rwD) :=
    ReachAny.addDset _ (ReachAny.create compact none 1 _ (by omega) (by omega))
  have ha := rx_any share (mem := (AFile.create 1).addDset rwD) rfl
  obtain ⟨st', h1, h2⟩ := C95_write rfl (Reach.addDset _ (Reach.create compact none 1 (fun _ => 0) (by omega) (by omega)))
    ha rx_skips (by decide)
  have e1 : st'.compact = compact ∧ st'.lds = [] ∧ st'.mds = [] := by
    unfold FState.write at h1
    split at h1
    · obtain ⟨_, _, h1⟩ := Res.bind_ok h1
      simp only [Res.pure_eq, Res.ok.injEq] at h1
      rw [← h1]
      exact ⟨rfl, rfl, rfl⟩
    · simp at h1
  have e2 : (((AFile.create 1).addDset rwD).write 0 rxW).image recordedAs =
      ((AFile.create 1).addDset rwD).write 0 (recorded 0 rxW) := by
    rw [image_write, rx_recordedAs]
    rfl
  refine ⟨st', ((AFile.create 1).addDset rwD).write 0 rxW, ReachAny.write 0 rxW h0 ha (by decide) h1, rfl, .inl rfl,
    ?_, ?_, by decide, ?_, e1.1 ▸ hq, viewable_one rxQ _ rfl, by decide⟩
  · simp [Spec.Fresh, e1.2.1, e1.2.2]
  · simp [Spec.Fresh, e1.2.1, e1.2.2]
  · rw [e2, e1.1]
    refine (indexable_short ?_ ?_).served hq.wf
    · decide
    · decide

end Verif.Props
