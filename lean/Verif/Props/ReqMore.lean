import Verif.Model.ReqMore
import Verif.Props.Request

/-
C94: cancelling, releasing and watching combined requests.
-/

namespace Verif.Props
open _root_.Verif

/-- A request that can still be used, with all its parts. -/
def RUsable (o : RObj) : Prop := o.live = true ∧ ∀ p ∈ o.parts, p.live = true

/-- A request that is gone, with all its parts. -/
def RGone (o : RObj) : Prop := o.live = false ∧ ∀ p ∈ o.parts, p.live = false

theorem eachPart_all (ask : RPart → Option RStat) (ps : List RPart) (s : RStat) (hl : ∀ p ∈ ps, p.live = true)
    (ha : ∀ p ∈ ps, (ask p).isSome = true) :
    ∃ qs, eachPart ask ps s = .ok (qs, (ps.getLast?.bind ask).getD s, true) ∧ qs.length = ps.length ∧ ∀ q ∈ qs, q.live = false := by
  induction ps generalizing s with
  | nil => exact ⟨[], rfl, rfl, fun q hq => absurd hq List.not_mem_nil⟩
  | cons p ps ih =>
    have h1 := hl p List.mem_cons_self
    obtain ⟨st, h2⟩ := Option.isSome_iff_exists.mp (ha p List.mem_cons_self)
    obtain ⟨qs, e, hlen, hq⟩ := ih st (fun q hq => hl q (List.mem_cons_of_mem _ hq)) (fun q hq => ha q (List.mem_cons_of_mem _ hq))
    refine ⟨{ p with live := false } :: qs, ?_, by simp [hlen], ?_⟩
    · rw [eachPart, if_neg (by simp [h1]), h2]
      simp only [e, Res.bind]
      congr 3
      cases hps : ps with
      | nil => simp [h2]
      | cons a b =>
        have : (a :: b).getLast?.isSome = true := by simp
        obtain ⟨x, hx⟩ := Option.isSome_iff_exists.mp this
        have hx' : (p :: a :: b).getLast? = some x := by rw [List.getLast?_cons_cons]; exact hx
        rw [hx, hx']
        simp only [Option.bind_some]
        have hm : x ∈ a :: b := List.mem_of_getLast? hx
        obtain ⟨y, hy⟩ := Option.isSome_iff_exists.mp (ha x (List.mem_cons_of_mem _ (hps ▸ hm)))
        rw [hy]
        rfl
    · intro q hq'
      rcases List.mem_cons.mp hq' with rfl | hq'
      · rfl
      · exact hq q hq'

theorem eachPart_stop (ask : RPart → Option RStat) (a : List RPart) (p : RPart) (b : List RPart) (s : RStat)
    (hl : ∀ q ∈ a ++ p :: b, q.live = true) (ha : ∀ q ∈ a, (ask q).isSome = true) (hp : ask p = none) :
    ∃ t, eachPart ask (a ++ p :: b) s = .ok (a.map (fun q => { q with live := false }) ++ p :: b, t, false) := by
  induction a generalizing s with
  | nil =>
    refine ⟨s, ?_⟩
    rw [List.nil_append, eachPart, if_neg (by simp [hl p (by simp)]), hp]
    rfl
  | cons x a ih =>
    obtain ⟨st, h2⟩ := Option.isSome_iff_exists.mp (ha x List.mem_cons_self)
    obtain ⟨t, e⟩ := ih st (fun q hq => hl q (List.mem_cons_of_mem _ hq)) (fun q hq => ha q (List.mem_cons_of_mem _ hq))
    refine ⟨t, ?_⟩
    rw [List.cons_append, eachPart, if_neg (by simp [hl x (by simp)]), h2]
    simp only [e, Res.bind, List.map_cons, List.cons_append]

theorem first_none {α : Type} (ask : α → Option RStat) (ps : List α) (h : ∃ p ∈ ps, ask p = none) :
    ∃ a p b, ps = a ++ p :: b ∧ (∀ q ∈ a, (ask q).isSome = true) ∧ ask p = none := by
  induction ps with
  | nil => obtain ⟨p, hp, _⟩ := h; exact absurd hp List.not_mem_nil
  | cons x ps ih =>
    cases hx : ask x with
    | none => exact ⟨[], x, ps, rfl, fun q hq => absurd hq List.not_mem_nil, hx⟩
    | some st =>
      obtain ⟨p, hp, hn⟩ := h
      rcases List.mem_cons.mp hp with rfl | hp
      · rw [hx] at hn; simp at hn
      · obtain ⟨a, p', b, e, h1, h2⟩ := ih ⟨p, hp, hn⟩
        refine ⟨x :: a, p', b, by rw [e]; rfl, ?_, h2⟩
        intro q hq
        rcases List.mem_cons.mp hq with rfl | hq
        · rw [hx]; rfl
        · exact h1 q hq

/-- **C94, cancelling.** Of a request that can be used, H5VLrequest_cancel succeeds exactly if cancelling each of its parts does; then the request and
its parts are gone; otherwise it remains. -/
theorem C94_cancel {o : RObj} (h : RUsable o) (s : RStat) :
    ∃ o' st ok, reqCancel o s = .ok (o', st, ok) ∧ (ok = true ↔ ∀ p ∈ o.parts, p.cancel ≠ none) ∧ (ok = true → RGone o') ∧
      (ok = false → o'.live = true) := by
  unfold reqCancel reqEach
  rw [if_neg (by simp [h.1])]
  by_cases ha : ∀ p ∈ o.parts, p.cancel ≠ none
  · obtain ⟨qs, e, _, hq⟩ := eachPart_all RPart.cancel o.parts s h.2 (fun p hp => Option.isSome_iff_ne_none.mpr (ha p hp))
    rw [e]
    exact ⟨_, _, true, rfl, ⟨fun _ => ha, fun _ => rfl⟩, fun _ => ⟨rfl, hq⟩, fun x => by simp at x⟩
  · have : ∃ p ∈ o.parts, p.cancel = none := by
      apply Classical.byContradiction
      intro hx
      exact ha (fun p hp hn => hx ⟨p, hp, hn⟩)
    obtain ⟨a, p, b, e, h1, h2⟩ := first_none RPart.cancel o.parts this
    obtain ⟨t, e2⟩ := eachPart_stop RPart.cancel a p b s (fun q hq => h.2 q (e ▸ hq)) h1 h2
    rw [e, e2]
    refine ⟨_, _, false, rfl, ⟨fun x => by simp at x, fun x => ?_⟩, fun x => by simp at x, fun _ => rfl⟩
    exact absurd h2 (x p (by simp))

/-- **C94, releasing.** H5VLrequest_free of a request that can be used succeeds exactly if each of its parts can be released; then the request and its parts
are gone; otherwise it remains. -/
theorem C94_free {o : RObj} (h : RUsable o) :
    ∃ o' ok, reqFree o = .ok (o', ok) ∧ (ok = true ↔ ∀ p ∈ o.parts, p.free = true) ∧ (ok = true → RGone o') ∧ (ok = false → o'.live = true) := by
  unfold reqFree reqEach
  rw [if_neg (by simp [h.1])]
  by_cases hf : ∀ p ∈ o.parts, p.free = true
  · obtain ⟨qs, e, _, hq⟩ := eachPart_all (fun p => if p.free then some .succeed else none) o.parts .succeed h.2
      (fun p hp => by simp [hf p hp])
    rw [e]
    exact ⟨_, true, rfl, ⟨fun _ => hf, fun _ => rfl⟩, fun _ => ⟨rfl, hq⟩, fun x => by simp at x⟩
  · have : ∃ p ∈ o.parts, (fun p : RPart => if p.free then some RStat.succeed else none) p = none := by
      apply Classical.byContradiction
      intro hx
      refine hf (fun p hp => ?_)
      rcases Bool.eq_false_or_eq_true p.free with h1 | h1
      · exact h1
      · exact absurd ⟨p, hp, by simp [h1]⟩ hx
    obtain ⟨a, p, b, e, h1, h2⟩ := first_none _ o.parts this
    obtain ⟨t, e2⟩ := eachPart_stop _ a p b .succeed (fun q hq => h.2 q (e ▸ hq)) h1 h2
    rw [e, e2]
    refine ⟨_, false, rfl, ⟨fun x => by simp at x, fun x => ?_⟩, fun x => by simp at x, fun _ => rfl⟩
    have := x p (by simp)
    simp [this] at h2

/-- **C94, afterwards.** After a cancelling or releasing that succeeded, every further call with the request uses memory that is gone. -/
theorem C94_once {o : RObj} (h : RUsable o) (s : RStat) {o' : RObj} (hc : (∃ st, reqCancel o s = .ok (o', st, true)) ∨ reqFree o = .ok (o', true)) :
    (∀ s', reqCancel o' s' = .ub) ∧ reqFree o' = .ub := by
  have hg : o'.live = false := by
    rcases hc with ⟨st, hc⟩ | hc
    · obtain ⟨o2, st2, ok, e, _, h2, _⟩ := C94_cancel h s
      rw [e] at hc
      simp only [Res.ok.injEq, Prod.mk.injEq] at hc
      obtain ⟨rfl, _, rfl⟩ := hc
      exact (h2 rfl).1
    · obtain ⟨o2, ok, e, _, h2, _⟩ := C94_free h
      rw [e] at hc
      simp only [Res.ok.injEq, Prod.mk.injEq] at hc
      obtain ⟨rfl, rfl⟩ := hc
      exact (h2 rfl).1
  constructor
  · intro s'
    unfold reqCancel reqEach
    rw [if_pos hg]
  · unfold reqFree reqEach
    rw [if_pos hg]
    rfl

/-- **C94 is violated: the status of a cancelled request.** Only the last part counts: the request is reported as cancelled if that was, even if
cancelling all others was refused and they go on. -/
theorem C94_status_violated {o : RObj} (h : RUsable o) (s : RStat) {p : RPart} (ha : ∀ q ∈ o.parts, q.cancel ≠ none)
    (hp : o.parts.getLast? = some p) (hc : p.cancel = some .canceled) : ∃ o', reqCancel o s = .ok (o', .canceled, true) := by
  unfold reqCancel reqEach
  rw [if_neg (by simp [h.1])]
  obtain ⟨qs, e, _, _⟩ := eachPart_all RPart.cancel o.parts s h.2 (fun q hq => Option.isSome_iff_ne_none.mpr (ha q hq))
  rw [e, hp, Option.bind_some, hc]
  exact ⟨_, rfl⟩

/-- **C94 is violated: requests without parts.** Cancelling succeeds, and the status is what was in the memory of the caller. -/
theorem C94_nothing_violated (s : RStat) : reqCancel ⟨[], true⟩ s = .ok (⟨[], false⟩, s, true) := rfl

/-- **C94 is violated: a failing call.** If a part but the first cannot be cancelled, the call fails, the parts before it are gone, and any further call to
cancel or free the request uses them: neither the request nor the other parts can be released. -/
theorem C94_retry_violated {o : RObj} (h : RUsable o) (s : RStat) {x : RPart} {a b : List RPart} {p : RPart} (ho : o.parts = x :: a ++ p :: b)
    (ha : ∀ q ∈ x :: a, q.cancel ≠ none) (hp : p.cancel = none) :
    ∃ o' t, reqCancel o s = .ok (o', t, false) ∧ o'.live = true ∧ (∀ s', reqCancel o' s' = .ub) ∧ reqFree o' = .ub := by
  obtain ⟨t, e⟩ := eachPart_stop RPart.cancel (x :: a) p b s (fun q hq => h.2 q (ho ▸ hq))
    (fun q hq => Option.isSome_iff_ne_none.mpr (ha q hq)) hp
  unfold reqCancel reqFree reqEach
  rw [if_neg (by simp [h.1]), ho, e]
  exact ⟨_, _, rfl, rfl, fun s' => rfl, rfl⟩

/-- **C94 is violated: watching requests without parts.** The callback of the application is never called. -/
theorem C94_silent_violated {s : Notify} (h : NRun (notifyInit []) s) : s.fired = [] := by
  have : s = notifyInit [] := by
    generalize hi : notifyInit [] = i at h
    induction h with
    | refl => rfl
    | step j _ hs ih =>
      rw [ih, ← hi] at hs
      simp [notifyStep, notifyInit] at hs
  rw [this]
  rfl

/-! ### Examples -/

/-- A request of three parts, of which the second cannot be cancelled. -/
def rqThree : RObj := ⟨[⟨true, some .canceled, true⟩, ⟨true, none, true⟩, ⟨true, some .canceled, true⟩], true⟩

theorem rqThree_usable : RUsable rqThree := ⟨rfl, by decide⟩

example : ∃ o' t, reqCancel rqThree .succeed = .ok (o', t, false) ∧ o'.live = true ∧ (∀ s', reqCancel o' s' = .ub) ∧ reqFree o' = .ub :=
  C94_retry_violated rqThree_usable .succeed (x := ⟨true, some .canceled, true⟩) (a := []) (p := ⟨true, none, true⟩)
    (b := [⟨true, some .canceled, true⟩]) rfl (by decide) rfl

example : reqFree rqThree = .ok (⟨rqThree.parts.map (fun p => { p with live := false }), false⟩, true) ∧
    reqFree ⟨[⟨true, none, true⟩, ⟨true, none, false⟩], true⟩ = .ok (⟨[⟨false, none, true⟩, ⟨true, none, false⟩], true⟩, false) := by decide

example : RUsable ⟨[⟨true, some .cantCancel, true⟩, ⟨true, some .canceled, true⟩], true⟩ ∧
    reqCancel ⟨[⟨true, some .cantCancel, true⟩, ⟨true, some .canceled, true⟩], true⟩ .progress =
      .ok (⟨[⟨false, some .cantCancel, true⟩, ⟨false, some .canceled, true⟩], false⟩, .canceled, true) :=
  ⟨⟨rfl, by decide⟩, by decide⟩

example : NRun (notifyInit []) (notifyInit []) := .refl _

end Verif.Props
