import Verif.Lemmas.Recordable

namespace Verif

open Spec (AW LogOK)

theorem forall₂_mem_right {α β : Type} {R : α → β → Prop} {l : List α} {m : List β}
    (h : List.Forall₂ R l m) : ∀ b ∈ m, ∃ a ∈ l, R a b := by
  induction h with
  | nil => simp
  | @cons a b l m h1 _ ih =>
    intro c hc
    rcases List.mem_cons.mp hc with rfl | hc
    · exact ⟨a, by simp, h1⟩
    · obtain ⟨a', ha', hr⟩ := ih c hc
      exact ⟨a', by simp [ha'], hr⟩

theorem flatten_map_of_forall₂ {α β : Type} {g : β → α} {ps : List (List α)} {secs : List (List β)}
    (h : List.Forall₂ (fun p xs => xs.map g = p) ps secs) : ps.flatten = secs.flatten.map g := by
  induction h with
  | nil => rfl
  | cons h1 _ ih => simp [ih, ← h1]

/-- Facts about one request of a recorded log. -/
structure Recordable' (cfg : Cfg) (dsets : DSets) (x : AW × WReq) : Prop where
  rcd : Spec.Recordable cfg x.1 x.2.foff
  known : Spec.Known dsets x.1
  did : x.2.did = x.1.did
  data : x.2.data = x.1.data

/-- The sections written for a recordable log, and the conditions for reading them. -/
theorem log_sections {cfg : Cfg} {dsets : DSets} {ps : List (List (AW × Int))}
    (h : LogOK cfg dsets ps) :
    ∃ secs : List (List (AW × WReq)), metaOf cfg ps = .ok ((secs.map mbytes).flatten) ∧
      ps.flatten = secs.flatten.map (fun x => (x.1, x.2.foff)) ∧
      (∀ xs ∈ secs, SecOK cfg dsets xs) ∧
      (∀ x ∈ secs.flatten, Recordable' cfg dsets x) ∧
      ((cfg.share = true → Spec.SameSizes ps) → ∀ xs ∈ secs, ListShare cfg xs) ∧
      ((cfg.share = true → Spec.NoRepeat ps) → ∀ xs ∈ secs, CompactShare cfg xs) := by
  obtain ⟨secs, h1, h2⟩ := metaOf_sections (cfg := cfg) (ps := ps)
    (fun p hp => epochOK_of (h.recordable p hp) (fun hs => h.mix hs p hp))
  have hmem : ∀ xs ∈ secs, xs.map (fun x : AW × WReq => (x.1, x.2.foff)) ∈ ps ∧ IsSection cfg xs := by
    intro xs hxs
    obtain ⟨p, hp, hpx⟩ := forall₂_mem_right h2 xs hxs
    exact ⟨by rw [hpx.1]; exact hp, hpx.2⟩
  have hrec : ∀ xs ∈ secs, ∀ x ∈ xs, Spec.Recordable cfg x.1 x.2.foff := by
    intro xs hxs x hx
    exact h.recordable _ (hmem xs hxs).1 (x.1, x.2.foff) (List.mem_map_of_mem (f := fun x : AW × WReq => (x.1, x.2.foff)) hx)
  have hkn : ∀ xs ∈ secs, ∀ x ∈ xs, Spec.Known dsets x.1 := by
    intro xs hxs x hx
    exact h.known _ (hmem xs hxs).1 (x.1, x.2.foff) (List.mem_map_of_mem (f := fun x : AW × WReq => (x.1, x.2.foff)) hx)
  refine ⟨secs, h1, flatten_map_of_forall₂ (h2.imp (fun _ _ h => h.1)), ?_, ?_, ?_, ?_⟩
  · intro xs hxs
    have hm := hmem xs hxs
    refine secOK_of hm.2 (hrec xs hxs) (hkn xs hxs) ?_ ?_
    · have := h.len _ hm.1; simpa using this
    · intro hs
      have := h.link hs _ hm.1
      rw [List.pairwise_map] at this
      exact this
  · intro x hx
    rw [List.mem_flatten] at hx
    obtain ⟨xs, hxs, hx⟩ := hx
    obtain ⟨p, q, e⟩ := List.append_of_mem hx
    have := secElem_hdr ((hmem xs hxs).2 p x q e)
    exact ⟨hrec xs hxs x hx, hkn xs hxs x hx, this.1, this.2.1⟩
  · intro hs xs hxs
    refine listShare_of (hrec xs hxs) (fun hsh => ?_)
    have := hs hsh _ (hmem xs hxs).1
    rw [List.pairwise_map] at this
    exact this
  · intro hs xs hxs
    refine compactShare_of (hrec xs hxs) (fun hsh => ?_)
    have := hs hsh _ (hmem xs hxs).1
    rw [List.pairwise_map] at this
    exact this

theorem visible_eq {dsets : DSets} {ps : List (List (AW × Int))} {secs : List (List (AW × WReq))}
    (h : ps.flatten = secs.flatten.map (fun x => (x.1, x.2.foff))) :
    Spec.visible dsets ps =
      (secs.flatten.filter (fun x => linked dsets x.1.did)).map (fun x => (x.1, x.2.foff)) := by
  unfold Spec.visible
  rw [h, List.filter_map]
  rfl

/-- Index entries describe the visible writes (list index). -/
theorem describes_L {cfg : Cfg} {dsets : DSets} {xs : List (AW × WReq)} {es : List MEnt}
    (hx : ∀ x ∈ xs, Recordable' cfg dsets x) (h : List.Forall₂ EntOK xs es) :
    List.Forall₂ (fun x e => Spec.Describes x e.hdr.did e.hdr.foff e.hdr.fsize e.sels)
      (xs.map (fun x => (x.1, x.2.foff))) es := by
  rw [List.forall₂_map_left_iff]
  have : List.Forall₂ (fun x e => x ∈ xs ∧ EntOK x e) xs es := by
    rw [List.forall₂_and_left]; exact ⟨fun x hx => hx, h⟩
  refine this.imp ?_
  rintro x e ⟨hm, he⟩
  have := hx x hm
  refine ⟨?_, ?_, ?_, he.2⟩
  · rw [he.1]; simp [WReq.hdr, this.did]
  · rw [he.1]; rfl
  · rw [he.1]; simp [WReq.hdr, this.data]

/-- Index entries describe the visible writes (compact index). -/
theorem describes_C {cfg : Cfg} {dsets : DSets} {xs : List (AW × WReq)} {es : List CEnt}
    (hx : ∀ x ∈ xs, Recordable' cfg dsets x) (hv : ∀ x ∈ xs, linked dsets x.1.did = true)
    (hrec : ∀ x ∈ xs, ∀ n, recOf x.1.d x.1.bs = some n → n < 2 ^ 63)
    (h : List.Forall₂ CEntOK xs es) :
    List.Forall₂ (fun x e => ∃ d sels, dsets[x.1.did]? = some (some d) ∧
        Spec.compactSels d e = .ok sels ∧ Spec.Describes x e.did e.foff e.fsize sels)
      (xs.map (fun x => (x.1, x.2.foff))) es := by
  rw [List.forall₂_map_left_iff]
  have : List.Forall₂ (fun x e => x ∈ xs ∧ CEntOK x e) xs es := by
    rw [List.forall₂_and_left]; exact ⟨fun x hx => hx, h⟩
  refine this.imp ?_
  rintro x e ⟨hm, he⟩
  have hr := hx x hm
  obtain ⟨d, hd⟩ := linked_iff.mp (hv x hm)
  refine ⟨d, _, hd, compactSels_ok he hr.rcd.sel (hr.known.same d hd) (hrec x hm), ?_, ?_, ?_, rfl⟩
  · rw [he.1]; simp [WReq.hdr, hr.did]
  · rw [he.2.1]; rfl
  · rw [he.2.2.1]; simp [WReq.hdr, hr.data]

end Verif
