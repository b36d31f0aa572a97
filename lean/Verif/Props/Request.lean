import Verif.Model.Request
import Mathlib.Data.List.Forall2

/-
C32: combined requests.
-/

namespace Verif.Props

/-! ### Waiting -/

theorem waitLoop_spec : ∀ (ps : List Part) (acc r : RStat), waitLoop ps acc = some r →
    ∃ sts : List RStat, ps.map partStat = sts.map some ∧ (r = .fail ↔ acc = .fail ∨ RStat.fail ∈ sts) ∧
      (r = .succeed ↔ acc = .succeed ∧ ∀ st ∈ sts, st = .succeed)
  | [], acc, r, h => by
    simp only [waitLoop, Option.some.injEq] at h
    exact ⟨[], rfl, by simp [h], by simp [h]⟩
  | p :: ps, acc, r, h => by
    unfold waitLoop at h
    cases hp : partStat p with
    | none => rw [hp] at h; cases h
    | some st =>
      rw [hp] at h
      obtain ⟨sts, h1, h2, h3⟩ := waitLoop_spec ps _ r h
      refine ⟨st :: sts, by simp [hp, h1], ?_, ?_⟩
      · rw [h2]
        unfold combine
        by_cases hf : st = .fail
        · simp [hf]
        · simp only [if_neg hf, List.mem_cons, Ne.symm hf, false_or]
          split
          · rename_i ha; rw [ha]; simp [hf]
          · exact Iff.rfl
      · rw [h3]
        unfold combine
        by_cases hf : st = .fail
        · simp [hf]
        · rw [if_neg hf]
          split
          · rename_i ha; simp [ha]
          · rename_i ha; simp [ha]

/-- What is known about a part after waiting: a part that was complete keeps its status, otherwise it has the one the under VOL returns. -/
def Says (p : Part) (st : RStat) : Prop := (p.stat ≠ .progress ∧ p.stat = st) ∨ (p.stat = .progress ∧ p.answer = some st)

theorem says_iff {p : Part} {st : RStat} : Says p st ↔ partStat p = some st := by
  unfold Says partStat
  split <;> rename_i h
  · simp [h]
  · simp [h]

theorem says_all : ∀ {ps : List Part} {sts : List RStat}, ps.map partStat = sts.map some → List.Forall₂ Says ps sts
  | [], [], _ => .nil
  | [], _ :: _, h => by simp at h
  | _ :: _, [], h => by simp at h
  | p :: ps, st :: sts, h => by
    simp only [List.map_cons, List.cons.injEq] at h
    exact .cons (says_iff.mpr h.1) (says_all h.2)

/-- C32: waiting reports success exactly if all parts have succeeded, failure exactly if some part has failed, and releases
the request exactly if it does not report it to be in progress; for every number of parts and whatever their statuses. -/
theorem C32_wait (ps : List Part) (r : RStat) (rel : Bool) (h : reqWait ps = some (r, rel)) :
    ∃ sts : List RStat, List.Forall₂ Says ps sts ∧ (r = .fail ↔ RStat.fail ∈ sts) ∧ (r = .succeed ↔ ∀ st ∈ sts, st = .succeed) ∧
      (rel = true ↔ r ≠ .progress) := by
  unfold reqWait at h
  cases hw : waitLoop ps .succeed with
  | none => rw [hw] at h; cases h
  | some r' =>
    rw [hw] at h
    simp only [Option.map_some, Option.some.injEq, Prod.mk.injEq] at h
    obtain ⟨rfl, hrel⟩ := h
    obtain ⟨sts, h1, h2, h3⟩ := waitLoop_spec ps _ _ hw
    exact ⟨sts, says_all h1, by simpa using h2, by simpa using h3, by rw [← hrel]; simp⟩

example : reqWait [⟨.progress, some .succeed⟩, ⟨.succeed, none⟩, ⟨.progress, some .fail⟩, ⟨.progress, some .succeed⟩] =
    some (.fail, true) := by decide

/-- A failed part releases the request although another part is still in progress: its completion can no longer be
waited for. -/
theorem C32_release_violated : ∃ ps, reqWait ps = some (.fail, true) ∧ ∃ p ∈ ps, Says p .progress :=
  ⟨[⟨.progress, some .fail⟩, ⟨.progress, some .progress⟩], by decide, ⟨.progress, some .progress⟩, by simp, Or.inr ⟨rfl, rfl⟩⟩

/-! ### Notification -/

/-- Callbacks that have not decremented the count. -/
def activeThr (t : Thr) : Bool := t.pc == .start || t.pc == .store || t.pc == .dec
/-- Callbacks that are about to call the user. -/
def fireThr (t : Thr) : Bool := t.pc == .fire

/-- Reachable by steps of the callbacks, in any interleaving. -/
inductive NRun : Notify → Notify → Prop
  | refl (s) : NRun s s
  | step {s s' s'' : Notify} (i : Nat) : NRun s s' → notifyStep s' i = some (.ok s'') → NRun s s''

/-- Invariant of a notification. -/
structure NInv (n : Nat) (s : Notify) : Prop where
  len : s.thrs.length = n
  cnt : s.cnt = (s.thrs.countP activeThr : Nat)
  fire : s.thrs.countP fireThr + s.fired.length = if s.thrs.countP activeThr = 0 ∧ n ≠ 0 then 1 else 0
  freed : s.freed = true ↔ s.fired ≠ []

theorem NInv_init (sts : List RStat) : NInv sts.length (notifyInit sts) := by
  have ha : ((notifyInit sts).thrs).countP activeThr = sts.length := by
    unfold notifyInit
    simp [List.countP_map, Function.comp_def, activeThr]
  have hf : ((notifyInit sts).thrs).countP fireThr = 0 := by
    unfold notifyInit
    simp [List.countP_map, Function.comp_def, fireThr]
  refine ⟨by simp [notifyInit], ?_, ?_, by simp [notifyInit]⟩
  · rw [ha]; rfl
  · rw [ha, hf, if_neg (by omega)]; rfl

/-- Counting after a callback moves. -/
theorem countP_move {l : List Thr} {i : Nat} {t : Thr} (h : l[i]? = some t) (p : Thr → Bool) (t' : Thr) :
    (l.set i t').countP p + (if p t then 1 else 0) = l.countP p + (if p t' then 1 else 0) := by
  obtain ⟨hi, he⟩ := List.getElem?_eq_some_iff.mp h
  rw [List.countP_set hi, he]
  have : (if p t then 1 else 0) ≤ l.countP p := by
    split
    · rename_i hp
      exact List.countP_pos_iff.mpr ⟨t, List.mem_of_getElem? h, hp⟩
    · omega
  omega

theorem pos_of_active {l : List Thr} {i : Nat} {t : Thr} (h : l[i]? = some t) (p : Thr → Bool) (hp : p t = true) :
    0 < l.countP p := List.countP_pos_iff.mpr ⟨t, List.mem_of_getElem? h, hp⟩

/-- A step from a state with the invariant is defined and keeps the invariant. -/
theorem NInv_step {n : Nat} {s : Notify} (hs : NInv n s) {i : Nat} {r : Res Notify} (h : notifyStep s i = some r) :
    ∃ s', r = .ok s' ∧ NInv n s' := by
  unfold notifyStep at h
  cases ht : s.thrs[i]? with
  | none => rw [ht] at h; cases h
  | some t =>
    rw [ht] at h
    simp only [Option.bind_some] at h
    obtain ⟨pc, status⟩ := t
    have hn : n ≠ 0 := by
      have := (List.getElem?_eq_some_iff.mp ht).1
      rw [hs.len] at this
      omega
    -- the context is not freed
    have hfree : pc ≠ .done → s.freed = false := by
      intro hp
      cases hb : s.freed with
      | false => rfl
      | true =>
        exfalso
        have h1 := hs.freed.mp hb
        have h2 : 0 < s.fired.length := List.length_pos_iff.mpr h1
        have h3 := hs.fire
        cases pc with
        | done => exact hp rfl
        | fire =>
          have := pos_of_active ht fireThr rfl
          split at h3 <;> omega
        | _ =>
          have := pos_of_active ht activeThr rfl
          rw [if_neg (by omega)] at h3
          omega
    by_cases hd : pc = .done
    · subst hd; cases h
    · rw [if_neg hd, if_neg (by rw [hfree hd]; decide)] at h
      simp only [Option.some.injEq] at h
      have mv : ∀ (pc' : Pc), pc' = .store ∨ pc' = .dec → (pc = .start ∨ pc = .store) →
          ∀ st', NInv n { s with stat := st', thrs := s.thrs.set i ⟨pc', status⟩ } := by
        intro pc' hp' hp st'
        have ha := countP_move ht activeThr ⟨pc', status⟩
        have hf := countP_move ht fireThr ⟨pc', status⟩
        have e1 : activeThr ⟨pc, status⟩ = true := by rcases hp with rfl | rfl <;> rfl
        have e2 : activeThr ⟨pc', status⟩ = true := by rcases hp' with rfl | rfl <;> rfl
        have e3 : fireThr ⟨pc, status⟩ = false := by rcases hp with rfl | rfl <;> rfl
        have e4 : fireThr ⟨pc', status⟩ = false := by rcases hp' with rfl | rfl <;> rfl
        rw [e1, e2] at ha
        rw [e3, e4] at hf
        simp only [if_true] at ha
        simp only [Bool.false_eq_true, if_false, Nat.add_zero] at hf
        have ha' : (s.thrs.set i ⟨pc', status⟩).countP activeThr = s.thrs.countP activeThr := by omega
        refine ⟨by simp [hs.len], ?_, ?_, hs.freed⟩
        · show s.cnt = _
          rw [ha', hs.cnt]
        · show (s.thrs.set i ⟨pc', status⟩).countP fireThr + s.fired.length = _
          rw [hf, ha']
          exact hs.fire
      cases pc with
      | start =>
        simp only at h
        split at h
        · exact ⟨_, h.symm, mv .dec (.inr rfl) (.inl rfl) .fail⟩
        · split at h
          · exact ⟨_, h.symm, mv .store (.inl rfl) (.inl rfl) s.stat⟩
          · exact ⟨_, h.symm, mv .dec (.inr rfl) (.inl rfl) s.stat⟩
      | store => exact ⟨_, h.symm, mv .dec (.inr rfl) (.inr rfl) status⟩
      | dec =>
        simp only at h
        have hpos := pos_of_active ht activeThr rfl
        have hfire := hs.fire
        rw [if_neg (by omega)] at hfire
        have hcnt := hs.cnt
        split at h
        · rename_i hz
          refine ⟨_, h.symm, ?_⟩
          have ha := countP_move ht activeThr ⟨.fire, status⟩
          have hf := countP_move ht fireThr ⟨.fire, status⟩
          simp only [activeThr, fireThr] at ha hf
          simp at ha hf
          refine ⟨by simp [Notify.move, hs.len], ?_, ?_, hs.freed⟩
          · show s.cnt - 1 = _
            simp only [Notify.move]
            omega
          · show (s.thrs.set i ⟨.fire, status⟩).countP fireThr + s.fired.length =
              if (s.thrs.set i ⟨.fire, status⟩).countP activeThr = 0 ∧ n ≠ 0 then 1 else 0
            split <;> omega
        · rename_i hz
          refine ⟨_, h.symm, ?_⟩
          have ha := countP_move ht activeThr ⟨.done, status⟩
          have hf := countP_move ht fireThr ⟨.done, status⟩
          simp only [activeThr, fireThr] at ha hf
          simp at ha hf
          refine ⟨by simp [Notify.move, hs.len], ?_, ?_, hs.freed⟩
          · show s.cnt - 1 = _
            simp only [Notify.move]
            omega
          · show (s.thrs.set i ⟨.done, status⟩).countP fireThr + s.fired.length =
              if (s.thrs.set i ⟨.done, status⟩).countP activeThr = 0 ∧ n ≠ 0 then 1 else 0
            split <;> omega
      | fire =>
        refine ⟨_, h.symm, ?_⟩
        have hpos := pos_of_active ht fireThr rfl
        have ha := countP_move ht activeThr ⟨.done, status⟩
        have hf := countP_move ht fireThr ⟨.done, status⟩
        simp only [activeThr, fireThr] at ha hf
        simp at ha hf
        have hfire := hs.fire
        split at hfire
        · rename_i hc
          refine ⟨by simp [Notify.move, hs.len], ?_, ?_, by simp [Notify.move]⟩
          · show s.cnt = _
            simp only [Notify.move]
            have := hs.cnt
            omega
          · show (s.thrs.set i ⟨.done, status⟩).countP fireThr + (s.fired.length + 1) =
              if (s.thrs.set i ⟨.done, status⟩).countP activeThr = 0 ∧ n ≠ 0 then 1 else 0
            split <;> omega
        · omega
      | done => exact absurd rfl hd

theorem NInv_run {sts : List RStat} {s : Notify} (h : NRun (notifyInit sts) s) : NInv sts.length s := by
  generalize hi : notifyInit sts = s0 at h
  induction h with
  | refl => rw [← hi]; exact NInv_init sts
  | step i _ hstep ih =>
    obtain ⟨s', e, hv⟩ := NInv_step ih hstep
    cases e
    exact hv

/-- C32: in every interleaving of the completions, no callback touches the context after it is freed, the user is called at
most once and not before every part has completed, and once all callbacks have finished the user has been called exactly
once (for at least one part) and the context is freed. -/
theorem C32_notify_once {sts : List RStat} {s : Notify} (h : NRun (notifyInit sts) s) :
    (∀ i, notifyStep s i ≠ some .ub) ∧ s.fired.length ≤ 1 ∧
    (s.fired ≠ [] → ∀ t ∈ s.thrs, t.pc = .done) ∧
    (sts ≠ [] → (∀ t ∈ s.thrs, t.pc = .done) → s.fired.length = 1 ∧ s.freed = true) := by
  have hv := NInv_run h
  refine ⟨?_, ?_, ?_, ?_⟩
  · intro i he
    obtain ⟨s', e, _⟩ := NInv_step hv he
    cases e
  · have := hv.fire
    split at this <;> omega
  · intro hf t ht
    have h1 : 0 < s.fired.length := List.length_pos_iff.mpr hf
    have h2 := hv.fire
    have ha : s.thrs.countP activeThr = 0 := by
      rcases Nat.eq_zero_or_pos (s.thrs.countP activeThr) with h | h
      · exact h
      · rw [if_neg (by omega)] at h2; omega
    have hfr : s.thrs.countP fireThr = 0 := by split at h2 <;> omega
    have n1 := List.countP_eq_zero.mp ha t ht
    have n2 := List.countP_eq_zero.mp hfr t ht
    revert n1 n2
    cases hpc : t.pc <;> simp [activeThr, fireThr, hpc]
  · intro hne hall
    have ha : s.thrs.countP activeThr = 0 := by
      rw [List.countP_eq_zero]
      intro t ht
      simp [activeThr, hall t ht]
    have hfr : s.thrs.countP fireThr = 0 := by
      rw [List.countP_eq_zero]
      intro t ht
      simp [fireThr, hall t ht]
    have h2 := hv.fire
    rw [ha, hfr, if_pos ⟨rfl, by simpa using hne⟩] at h2
    refine ⟨by omega, hv.freed.mpr ?_⟩
    intro he
    rw [he] at h2
    simp at h2

/-- Callbacks can always proceed: as long as one is not finished, it can step. -/
theorem C32_notify_progress {sts : List RStat} {s : Notify} (h : NRun (notifyInit sts) s) {i : Nat} {t : Thr}
    (ht : s.thrs[i]? = some t) (hd : t.pc ≠ .done) : ∃ s', notifyStep s i = some (.ok s') := by
  have hv := NInv_run h
  cases hst : notifyStep s i with
  | none =>
    exfalso
    unfold notifyStep at hst
    rw [ht] at hst
    simp [hd] at hst
  | some r =>
    obtain ⟨s', e, _⟩ := NInv_step hv hst
    exact ⟨s', by rw [e]⟩

/-- Runs in which no callback steps while another is between reading and storing the status. -/
inductive NRunA : Notify → Notify → Prop
  | refl (s) : NRunA s s
  | step {s s' s'' : Notify} (i : Nat) : NRunA s s' → (∀ j t, j ≠ i → s'.thrs[j]? = some t → t.pc ≠ .store) →
      notifyStep s' i = some (.ok s'') → NRunA s s''

theorem NRunA.run {s s' : Notify} (h : NRunA s s') : NRun s s' := by
  induction h with
  | refl => exact .refl _
  | step i _ _ hs ih => exact .step i ih hs

/-- Callbacks past the update of the status. -/
def passedThr (t : Thr) : Bool := t.pc == .dec || t.pc == .fire || t.pc == .done

/-- Invariant for such runs. -/
structure NStat (sts : List RStat) (s : Notify) : Prop where
  sts : s.thrs.map Thr.status = sts
  fail : s.stat = .fail ↔ ∃ t ∈ s.thrs, passedThr t = true ∧ t.status = .fail
  succ : s.stat = .succeed ↔ ∀ t ∈ s.thrs, passedThr t = true → t.status = .succeed
  store : ∀ t ∈ s.thrs, t.pc = .store → s.stat = .succeed ∧ t.status ≠ .fail
  fired : ∀ x ∈ s.fired, x = s.stat

theorem mem_set_cases {l : List Thr} {i : Nat} {t' x : Thr} (h : x ∈ l.set i t') :
    x = t' ∨ ∃ j, j ≠ i ∧ l[j]? = some x := by
  obtain ⟨j, hj⟩ := List.mem_iff_getElem?.mp h
  rw [List.getElem?_set] at hj
  split at hj
  · split at hj
    · left; simpa using hj.symm
    · cases hj
  · rename_i hne
    exact .inr ⟨j, fun h => hne h.symm, hj⟩

theorem mem_set_self {l : List Thr} {i : Nat} {t t' : Thr} (h : l[i]? = some t) : t' ∈ l.set i t' :=
  List.mem_iff_getElem?.mpr ⟨i, by rw [List.getElem?_set_self (List.getElem?_eq_some_iff.mp h).1]⟩

theorem mem_set_other {l : List Thr} {i j : Nat} {t' x : Thr} (hne : j ≠ i) (h : l[j]? = some x) : x ∈ l.set i t' :=
  List.mem_iff_getElem?.mpr ⟨j, by rw [List.getElem?_set_ne (fun e => hne e.symm), h]⟩

theorem NStat_step {sts : List RStat} {s s' : Notify} (hs : NStat sts s) (hv : NInv sts.length s) {i : Nat}
    (hat : ∀ j t, j ≠ i → s.thrs[j]? = some t → t.pc ≠ .store) (h : notifyStep s i = some (.ok s')) : NStat sts s' := by
  unfold notifyStep at h
  cases ht : s.thrs[i]? with
  | none => rw [ht] at h; cases h
  | some t =>
    rw [ht] at h
    simp only [Option.bind_some] at h
    obtain ⟨pc, status⟩ := t
    by_cases hd : pc = .done
    · subst hd; cases h
    rw [if_neg hd] at h
    simp only [Option.some.injEq] at h
    by_cases hfr : s.freed = true
    · rw [if_pos hfr] at h; cases h
    rw [if_neg hfr] at h
    have hnf : s.fired = [] := by
      apply Decidable.byContradiction
      intro hne
      exact hfr (hv.freed.mpr hne)
    have hmem : (⟨pc, status⟩ : Thr) ∈ s.thrs := List.mem_of_getElem? ht
    have hmap : ∀ pc', (s.thrs.set i ⟨pc', status⟩).map Thr.status = sts := by
      intro pc'
      rw [List.map_set, ← hs.sts]
      refine List.ext_getElem? ?_
      intro j
      rw [List.getElem?_set]
      split
      · rename_i hij
        subst hij
        rw [List.getElem?_map, ht]
        simp
        exact (List.getElem?_eq_some_iff.mp ht).1
      · rfl
    -- threads that were past the update remain so, the others than `i` are as before
    have old : ∀ {pc'} x, x ∈ s.thrs.set i ⟨pc', status⟩ → x = ⟨pc', status⟩ ∨ x ∈ s.thrs := fun x hx =>
      (mem_set_cases hx).imp id (fun ⟨j, _, hj⟩ => List.mem_of_getElem? hj)
    have keep : ∀ {pc'} x, x ∈ s.thrs → x ≠ ⟨pc, status⟩ → x ∈ s.thrs.set i ⟨pc', status⟩ := by
      intro pc' x hx hne
      obtain ⟨j, hj⟩ := List.mem_iff_getElem?.mp hx
      by_cases hij : j = i
      · subst hij
        rw [ht] at hj
        exact absurd (Option.some.inj hj).symm hne
      · exact mem_set_other hij hj
    -- no other callback is about to store
    have nostore : ∀ {pc'} x, pc' ≠ .store → x ∈ s.thrs.set i ⟨pc', status⟩ → x.pc ≠ .store := by
      intro pc' x hp hx
      rcases mem_set_cases hx with rfl | ⟨j, hj, hjx⟩
      · exact hp
      · exact hat j x hj hjx
    cases pc with
    | start =>
      simp only at h
      have hnp : passedThr ⟨.start, status⟩ = false := rfl
      by_cases hf : status = .fail
      · rw [if_pos hf] at h
        cases h
        subst hf
        refine ⟨hmap _, ?_, ?_, ?_, ?_⟩
        · show RStat.fail = .fail ↔ _
          simp only [true_iff]
          exact ⟨⟨.dec, .fail⟩, mem_set_self ht, rfl, rfl⟩
        · show RStat.fail = .succeed ↔ _
          simp only [reduceCtorEq, false_iff]
          intro hall
          have := hall ⟨.dec, .fail⟩ (mem_set_self ht) rfl
          cases this
        · intro x hx hp
          exact absurd hp (nostore x (by decide) hx)
        · show ∀ x ∈ s.fired, _
          rw [hnf]; simp
      · rw [if_neg hf] at h
        by_cases hsu : s.stat = .succeed
        · rw [if_pos hsu] at h
          cases h
          refine ⟨hmap _, ?_, ?_, ?_, ?_⟩
          · show s.stat = .fail ↔ _
            rw [hs.fail]
            constructor
            · rintro ⟨x, hx, hp, he⟩
              exact ⟨x, keep x hx (by rintro rfl; cases hp), hp, he⟩
            · rintro ⟨x, hx, hp, he⟩
              rcases old x hx with rfl | hx
              · cases hp
              · exact ⟨x, hx, hp, he⟩
          · show s.stat = .succeed ↔ _
            rw [hs.succ]
            constructor
            · intro hall x hx hp
              rcases old x hx with rfl | hx
              · cases hp
              · exact hall x hx hp
            · intro hall x hx hp
              exact hall x (keep x hx (by rintro rfl; cases hp)) hp
          · intro x hx hp
            rcases mem_set_cases hx with rfl | ⟨j, hj, hjx⟩
            · exact ⟨hsu, hf⟩
            · exact absurd hp (hat j x hj hjx)
          · show ∀ x ∈ s.fired, _
            rw [hnf]; simp
        · rw [if_neg hsu] at h
          cases h
          refine ⟨hmap _, ?_, ?_, ?_, ?_⟩
          · show s.stat = .fail ↔ _
            rw [hs.fail]
            constructor
            · rintro ⟨x, hx, hp, he⟩
              exact ⟨x, keep x hx (by rintro rfl; cases hp), hp, he⟩
            · rintro ⟨x, hx, hp, he⟩
              rcases old x hx with rfl | hx
              · exact absurd he hf
              · exact ⟨x, hx, hp, he⟩
          · show s.stat = .succeed ↔ _
            constructor
            · intro hc; exact absurd hc hsu
            · intro hall
              refine hs.succ.mpr ?_
              intro x hx hp
              exact hall x (keep x hx (by rintro rfl; cases hp)) hp
          · intro x hx hp
            exact absurd hp (nostore x (by decide) hx)
          · show ∀ x ∈ s.fired, _
            rw [hnf]; simp
    | store =>
      simp only at h
      cases h
      obtain ⟨hsu, hnf2⟩ := hs.store _ hmem rfl
      have hold := hs.succ.mp hsu
      simp only at hnf2
      refine ⟨hmap _, ?_, ?_, ?_, ?_⟩
      · show status = .fail ↔ _
        constructor
        · intro hc; exact absurd hc hnf2
        · rintro ⟨x, hx, hp, he⟩
          rcases old x hx with rfl | hx
          · exact he
          · have := hold x hx hp
            rw [he] at this; cases this
      · show status = .succeed ↔ _
        constructor
        · intro hc x hx hp
          rcases old x hx with rfl | hx
          · exact hc
          · exact hold x hx hp
        · intro hall
          exact hall ⟨.dec, status⟩ (mem_set_self ht) rfl
      · intro x hx hp
        exact absurd hp (nostore x (by decide) hx)
      · show ∀ x ∈ s.fired, _
        rw [hnf]; simp
    | dec =>
      simp only at h
      have mvd : ∀ pc', (pc' = .fire ∨ pc' = .done) → ∀ c,
          NStat sts { s with cnt := c, thrs := s.thrs.set i ⟨pc', status⟩ } := by
        intro pc' hp' c
        have hpp : passedThr ⟨pc', status⟩ = true := by rcases hp' with rfl | rfl <;> rfl
        refine ⟨hmap _, ?_, ?_, ?_, ?_⟩
        · show s.stat = .fail ↔ _
          rw [hs.fail]
          constructor
          · rintro ⟨x, hx, hp, he⟩
            by_cases hxe : x = ⟨.dec, status⟩
            · subst hxe
              exact ⟨⟨pc', status⟩, mem_set_self ht, hpp, he⟩
            · exact ⟨x, keep x hx hxe, hp, he⟩
          · rintro ⟨x, hx, hp, he⟩
            rcases old x hx with rfl | hx
            · exact ⟨_, hmem, rfl, he⟩
            · exact ⟨x, hx, hp, he⟩
        · show s.stat = .succeed ↔ _
          rw [hs.succ]
          constructor
          · intro hall x hx hp
            rcases old x hx with rfl | hx
            · exact hall ⟨.dec, status⟩ hmem rfl
            · exact hall x hx hp
          · intro hall x hx hp
            by_cases hxe : x = ⟨.dec, status⟩
            · subst hxe
              exact hall ⟨pc', status⟩ (mem_set_self ht) hpp
            · exact hall x (keep x hx hxe) hp
        · intro x hx hp
          exact absurd hp (nostore x (by rcases hp' with rfl | rfl <;> decide) hx)
        · show ∀ x ∈ s.fired, _
          rw [hnf]; simp
      split at h
      · cases h
        exact mvd .fire (.inl rfl) _
      · cases h
        exact mvd .done (.inr rfl) _
    | fire =>
      simp only at h
      cases h
      refine ⟨hmap _, ?_, ?_, ?_, ?_⟩
      · show s.stat = .fail ↔ _
        rw [hs.fail]
        constructor
        · rintro ⟨x, hx, hp, he⟩
          by_cases hxe : x = ⟨.fire, status⟩
          · subst hxe
            exact ⟨⟨.done, status⟩, mem_set_self ht, rfl, he⟩
          · exact ⟨x, keep x hx hxe, hp, he⟩
        · rintro ⟨x, hx, hp, he⟩
          rcases old x hx with rfl | hx
          · exact ⟨_, hmem, rfl, he⟩
          · exact ⟨x, hx, hp, he⟩
      · show s.stat = .succeed ↔ _
        rw [hs.succ]
        constructor
        · intro hall x hx hp
          rcases old x hx with rfl | hx
          · exact hall ⟨.fire, status⟩ hmem rfl
          · exact hall x hx hp
        · intro hall x hx hp
          by_cases hxe : x = ⟨.fire, status⟩
          · subst hxe
            exact hall ⟨.done, status⟩ (mem_set_self ht) rfl
          · exact hall x (keep x hx hxe) hp
      · intro x hx hp
        exact absurd hp (nostore x (by decide) hx)
      · show ∀ x ∈ s.stat :: s.fired, x = s.stat
        rw [hnf]; simp
    | done => exact absurd rfl hd

theorem NStat_run {sts : List RStat} {s : Notify} (h : NRunA (notifyInit sts) s) : NStat sts s := by
  generalize hi : notifyInit sts = s0 at h
  induction h with
  | refl =>
    rw [← hi]
    refine ⟨by simp [notifyInit, Function.comp_def], ?_, ?_, ?_, by simp [notifyInit]⟩
    · simp [notifyInit, passedThr]
    · simp [notifyInit, passedThr]
    · simp [notifyInit]
  | step i hr hat hs ih =>
    subst hi
    exact NStat_step ih (NInv_run hr.run) hat hs

/-- C32: if the updates of the status are not interrupted, the user is told failure exactly if a part failed and success
exactly if all parts succeeded, whatever the number of parts and the order of completion. -/
theorem C32_notify_partial {sts : List RStat} {s : Notify} (h : NRunA (notifyInit sts) s) (x : RStat) (hx : s.fired = [x]) :
    (x = .fail ↔ RStat.fail ∈ sts) ∧ (x = .succeed ↔ ∀ st ∈ sts, st = .succeed) := by
  have hst := NStat_run h
  have hall := (C32_notify_once h.run).2.2.1 (by rw [hx]; simp)
  have hxe := hst.fired x (by rw [hx]; simp)
  have hp : ∀ t ∈ s.thrs, passedThr t = true := by
    intro t ht
    simp [passedThr, hall t ht]
  rw [hxe]
  constructor
  · rw [hst.fail, ← hst.sts, List.mem_map]
    constructor
    · rintro ⟨t, ht, _, he⟩; exact ⟨t, ht, he⟩
    · rintro ⟨t, ht, he⟩; exact ⟨t, ht, hp t ht, he⟩
  · rw [hst.succ, ← hst.sts]
    simp only [List.mem_map, forall_exists_index, and_imp, forall_apply_eq_imp_iff₂]
    constructor
    · intro h t ht; exact h t ht (hp t ht)
    · intro h t ht _; exact h t ht

/-- Runs a schedule. -/
def runSched : List Nat → Notify → Option Notify
  | [], s => some s
  | i :: l, s => (notifyStep s i).bind fun r => match r with
    | .ok s' => runSched l s'
    | _ => none

theorem runSched_run : ∀ (l : List Nat) (s0 s s' : Notify), NRun s0 s → runSched l s = some s' → NRun s0 s'
  | [], s0, s, s', h0, h => by
    simp only [runSched, Option.some.injEq] at h
    rw [← h]; exact h0
  | i :: l, s0, s, s', h0, h => by
    unfold runSched at h
    cases hst : notifyStep s i with
    | none => rw [hst] at h; cases h
    | some r =>
      rw [hst] at h
      cases r with
      | ok s1 => exact runSched_run l s0 s1 s' (.step i h0 hst) h
      | err => cases h
      | ub => cases h

/-- C32 is violated: two parts complete at the same time, the second fails, and the user is told success; the first had read
the status before the failure was stored. -/
theorem C32_notify_violated : ∃ s, NRun (notifyInit [.succeed, .fail]) s ∧ s.fired = [.succeed] := by
  have h : (runSched [0, 1, 0, 1, 0, 0] (notifyInit [.succeed, .fail])).map Notify.fired = some [.succeed] := by decide
  cases hs : runSched [0, 1, 0, 1, 0, 0] (notifyInit [.succeed, .fail]) with
  | none => rw [hs] at h; cases h
  | some s =>
    rw [hs] at h
    exact ⟨s, runSched_run _ _ _ _ (.refl _) hs, by simpa using h⟩

example : (runSched [1, 1, 1, 0, 0, 2, 2, 2] (notifyInit [.fail, .succeed, .succeed])).map Notify.fired = some [.fail] := by
  decide

end Verif.Props
