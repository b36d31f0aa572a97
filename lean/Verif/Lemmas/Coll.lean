import Verif.Model.Coll
import Mathlib.Data.List.Dedup

/-
Systems of processes that make collective calls: the order in which independent calls complete does not matter.
-/

namespace Verif

variable {α β : Type} {n : Net}

theorem Prog.at_inj {c c' : Comm} {k k' : CKind} {p : Prog α} (h : p.at c k) (h' : p.at c' k') : c = c' ∧ k = k' := by
  cases p with
  | ret a => exact h.elim
  | call d l a f => exact ⟨h.1.symm.trans h'.1, h.2.symm.trans h'.2⟩

theorem ready_kind {c : Comm} {k k' : CKind} {s : Sys α} (h : s.ready n c k) (h' : s.ready n c k') : k = k' := by
  obtain ⟨r, hr⟩ := List.exists_mem_of_ne_nil _ h.1
  exact (Prog.at_inj (h.2 r hr) (h'.2 r hr)).2

theorem ready_apart {c c' : Comm} {k k' : CKind} {s : Sys α} (h : s.ready n c k) (h' : s.ready n c' k') (hc : c ≠ c')
    {r : Nat} (hr : r ∈ n.mem c) : r ∉ n.mem c' := by
  intro hr'
  exact hc (Prog.at_inj (h.2 r hr) (h'.2 r hr')).1

theorem fire_prog_other {c : Comm} {k : CKind} {s : Sys α} {r : Nat} (hr : r ∉ n.mem c) :
    (s.fire n c k).prog r = s.prog r := by
  simp only [Sys.fire, if_neg hr]

theorem fire_file_other {c c' : Comm} {k : CKind} {s : Sys α} (hc : c' ≠ c) : (s.fire n c k).file c' = s.file c' := by
  simp only [Sys.fire, if_neg hc]

theorem ready_after {c c' : Comm} {k k' : CKind} {s : Sys α} (h : s.ready n c k) (h' : s.ready n c' k') (hc : c ≠ c') :
    (s.fire n c k).ready n c' k' := by
  refine ⟨h'.1, fun r hr => ?_⟩
  rw [fire_prog_other (ready_apart h' h (Ne.symm hc) hr)]
  exact h'.2 r hr

theorem fire_args_other {c c' : Comm} {k k' : CKind} {s : Sys α} (h : s.ready n c k) (h' : s.ready n c' k') (hc : c ≠ c') :
    (n.mem c').map (fun r => ((s.fire n c k).prog r).arg) = (n.mem c').map (fun r => (s.prog r).arg) := by
  refine List.map_congr_left (fun r hr => ?_)
  rw [fire_prog_other (ready_apart h' h (Ne.symm hc) hr)]

theorem Sys.ext' {s t : Sys α} (hp : ∀ r, s.prog r = t.prog r) (hf : ∀ c, s.file c = t.file c) : s = t := by
  cases s; cases t
  simp only [Sys.mk.injEq]
  exact ⟨funext hp, funext hf⟩

/-- Two calls that can both complete do so in either order with the same effect. -/
theorem fire_comm {c c' : Comm} {k k' : CKind} {s : Sys α} (h : s.ready n c k) (h' : s.ready n c' k') (hc : c ≠ c') :
    (s.fire n c k).fire n c' k' = (s.fire n c' k').fire n c k := by
  have a1 := fire_args_other h h' hc
  have a2 := fire_args_other h' h (Ne.symm hc)
  have f1 : (s.fire n c k).file c' = s.file c' := fire_file_other (Ne.symm hc)
  have f2 : (s.fire n c' k').file c = s.file c := fire_file_other hc
  refine Sys.ext' (fun r => ?_) (fun d => ?_)
  · by_cases h1 : r ∈ n.mem c
    · have h2 : r ∉ n.mem c' := ready_apart h h' hc h1
      rw [fire_prog_other h2]
      conv_rhs => rw [Sys.fire]
      simp only [if_pos h1, a2, f2, fire_prog_other h2]
      simp only [Sys.fire, if_pos h1]
    · rw [fire_prog_other h1]
      by_cases h2 : r ∈ n.mem c'
      · conv_lhs => rw [Sys.fire]
        simp only [if_pos h2, a1, f1, fire_prog_other h1]
        simp only [Sys.fire, if_pos h2]
      · rw [fire_prog_other h2, fire_prog_other h1, fire_prog_other h2]
  · by_cases e : d = c
    · have e' : d ≠ c' := fun x => hc (e.symm.trans x)
      rw [fire_file_other e']
      conv_rhs => rw [Sys.fire]
      simp only [if_pos e, a2, f2]
      simp only [Sys.fire, if_pos e]
    · rw [fire_file_other e]
      by_cases e' : d = c'
      · conv_lhs => rw [Sys.fire]
        simp only [if_pos e', a1, f1]
        simp only [Sys.fire, if_pos e']
      · rw [fire_file_other e', fire_file_other e, fire_file_other e']

theorem step_diamond {s t u : Sys α} (h : s.Step n t) (h' : s.Step n u) : t = u ∨ ∃ v, t.Step n v ∧ u.Step n v := by
  obtain ⟨c, k, hr, rfl⟩ := h
  obtain ⟨c', k', hr', rfl⟩ := h'
  by_cases hc : c = c'
  · subst hc
    left
    rw [ready_kind hr hr']
  · right
    exact ⟨_, ⟨c', k', ready_after hr hr' hc, rfl⟩, ⟨c, k, ready_after hr' hr (Ne.symm hc), fire_comm hr hr' hc⟩⟩

theorem mem_lt {c : Comm} {r : Nat} (h : r ∈ n.mem c) : r < n.np := by
  cases c with
  | world => exact List.mem_range.mp h
  | group g => exact List.mem_range.mp (List.mem_filter.mp h).1

theorem done_no_step {s t : Sys α} (h : s.done n) : ¬ s.Step n t := by
  rintro ⟨c, k, hr, -⟩
  obtain ⟨r, hm⟩ := List.exists_mem_of_ne_nil _ hr.1
  obtain ⟨a, ha⟩ := h r (mem_lt hm)
  have := hr.2 r hm
  rw [ha] at this
  exact this

theorem Sys.Steps.trans {m l : Nat} {s t u : Sys α} (h : Sys.Steps n m s t) (h' : Sys.Steps n l t u) :
    Sys.Steps n (m + l) s u := by
  induction h with
  | refl s => rw [Nat.zero_add]; exact h'
  | head st _ ih => rw [Nat.add_right_comm]; exact .head st (ih h')

/-- If one way to run the system ends, a first step in any direction can be continued to the same end. -/
theorem strip {m : Nat} {s f t : Sys α} (h : Sys.Steps n m s f) (hd : f.done n) (h' : s.Step n t) :
    ∃ m', m = m' + 1 ∧ Sys.Steps n m' t f := by
  induction h generalizing t with
  | refl s => exact absurd h' (done_no_step hd)
  | head st hs ih =>
    rcases step_diamond st h' with rfl | ⟨v, hv, hv'⟩
    · exact ⟨_, rfl, hs⟩
    · obtain ⟨m', rfl, hm'⟩ := ih hd hv
      exact ⟨_, rfl, .head hv' hm'⟩

/-- If one way to run the system ends, all do, with the same end and the same number of calls. -/
theorem confluent {m l : Nat} {s f t : Sys α} (h : Sys.Steps n m s f) (hd : f.done n) (h' : Sys.Steps n l s t) :
    l ≤ m ∧ Sys.Steps n (m - l) t f := by
  induction h' generalizing m with
  | refl s => exact ⟨Nat.zero_le _, h⟩
  | head st _ ih =>
    obtain ⟨m', rfl, hm'⟩ := strip h hd st
    obtain ⟨h1, h2⟩ := ih hm'
    refine ⟨Nat.succ_le_succ h1, ?_⟩
    rw [Nat.add_sub_add_right]
    exact h2

/-- If one way to run the system gets stuck, no way ends. -/
theorem stuck_never {m l : Nat} {s f t : Sys α} (h : Sys.Steps n m s t) (hs : t.stuck n) (h' : Sys.Steps n l s f) :
    ¬ f.done n := by
  intro hd
  obtain ⟨-, h2⟩ := confluent h' hd h
  cases hk : l - m with
  | zero =>
    rw [hk] at h2
    cases h2
    exact hs.1 hd
  | succ j =>
    rw [hk] at h2
    cases h2 with
    | head st _ => exact hs.2 ⟨_, st⟩

/-! ### Sequences of programs -/

/-- The system in which every process goes on with `f`. -/
def Sys.then (s : Sys α) (f : Nat → α → Prog β) : Sys β :=
  { prog := fun r => (s.prog r).bind (f r), file := s.file }

theorem bind_at {c : Comm} {k : CKind} {p : Prog α} {f : α → Prog β} (h : p.at c k) : (p.bind f).at c k := by
  cases p with
  | ret a => exact h.elim
  | call d l a g => exact h

theorem bind_arg {c : Comm} {k : CKind} {p : Prog α} {f : α → Prog β} (h : p.at c k) : (p.bind f).arg = p.arg := by
  cases p with
  | ret a => exact h.elim
  | call d l a g => rfl

theorem bind_next {c : Comm} {k : CKind} {p : Prog α} {f : α → Prog β} (h : p.at c k) (x : List Nat) :
    (p.bind f).next x = (p.next x).bind f := by
  cases p with
  | ret a => exact h.elim
  | call d l a g => rfl

theorem then_step {s t : Sys α} {f : Nat → α → Prog β} (h : s.Step n t) : (s.then f).Step n (t.then f) := by
  obtain ⟨c, k, hr, rfl⟩ := h
  refine ⟨c, k, ⟨hr.1, fun r hm => bind_at (hr.2 r hm)⟩, ?_⟩
  have ha : (n.mem c).map (fun r => ((s.then f).prog r).arg) = (n.mem c).map (fun r => (s.prog r).arg) :=
    List.map_congr_left (fun r hm => bind_arg (hr.2 r hm))
  refine Sys.ext' (fun r => ?_) (fun d => ?_)
  · by_cases hm : r ∈ n.mem c
    · simp only [Sys.fire, if_pos hm, ha]
      simp only [Sys.then, if_pos hm]
      exact (bind_next (hr.2 r hm) _).symm
    · rw [fire_prog_other hm]
      simp only [Sys.then]
      rw [fire_prog_other hm]
  · by_cases e : d = c
    · simp only [Sys.fire, if_pos e, ha]
      simp only [Sys.then, if_pos e]
    · rw [fire_file_other e]
      simp only [Sys.then]
      rw [fire_file_other e]

theorem then_steps {m : Nat} {s t : Sys α} {f : Nat → α → Prog β} (h : Sys.Steps n m s t) :
    Sys.Steps n m (s.then f) (t.then f) := by
  induction h with
  | refl s => exact .refl _
  | head st _ ih => exact .head (then_step st) ih

/-- Processes below `np` are all that counts. -/
def Sys.Same (n : Net) (s t : Sys α) : Prop := (∀ r < n.np, s.prog r = t.prog r) ∧ ∀ c, s.file c = t.file c

theorem same_ready {s t : Sys α} (h : s.Same n t) {c : Comm} {k : CKind} (hr : s.ready n c k) : t.ready n c k :=
  ⟨hr.1, fun r hm => h.1 r (mem_lt hm) ▸ hr.2 r hm⟩

theorem same_fire {s t : Sys α} (h : s.Same n t) (c : Comm) (k : CKind) : (s.fire n c k).Same n (t.fire n c k) := by
  have ha : (n.mem c).map (fun r => (s.prog r).arg) = (n.mem c).map (fun r => (t.prog r).arg) :=
    List.map_congr_left (fun r hm => by rw [h.1 r (mem_lt hm)])
  refine ⟨fun r hr => ?_, fun d => ?_⟩
  · simp only [Sys.fire, ha, h.2 c, h.1 r hr]
  · simp only [Sys.fire, ha, h.2 c, h.2 d]

/-! ### Outcomes -/

theorem same_steps {m : Nat} {s t s' : Sys α} (h : s.Same n s') (hs : Sys.Steps n m s t) :
    ∃ t', Sys.Steps n m s' t' ∧ t.Same n t' := by
  induction hs generalizing s' with
  | refl s => exact ⟨_, .refl _, h⟩
  | head st _ ih =>
    obtain ⟨c, k, hr, rfl⟩ := st
    obtain ⟨t', h1, h2⟩ := ih (same_fire h c k)
    exact ⟨t', .head ⟨c, k, same_ready h hr, rfl⟩ h1, h2⟩

/-- From the processes `P` and the files `W`, some run leads to `φ`. -/
def Goes (n : Net) (φ : Sys α → Prop) (P : Nat → Prog α) (W : Comm → Store) : Prop :=
  ∃ m f, Sys.Steps n m ⟨P, W⟩ f ∧ φ f

/-- `φ` is about processes below `np` and files. -/
def Resp (n : Net) (φ : Sys α → Prop) : Prop := ∀ s t, s.Same n t → φ s → φ t

/-- All processes have ended, with the results `a` and the files `W`. -/
def EndsIn (n : Net) (a : Nat → α) (W : Comm → Store) (f : Sys α) : Prop :=
  (∀ r < n.np, f.prog r = .ret (a r)) ∧ f.file = W

/-- Some run ends with the results `a` and the files `W'`. -/
abbrev Ends (n : Net) (P : Nat → Prog α) (W : Comm → Store) (a : Nat → α) (W' : Comm → Store) : Prop :=
  Goes n (EndsIn n a W') P W

theorem resp_ends (a : Nat → α) (W : Comm → Store) : Resp n (EndsIn n a W) := by
  intro s t h hs
  refine ⟨fun r hr => by rw [← h.1 r hr, hs.1 r hr], ?_⟩
  funext c
  rw [← h.2 c, hs.2]

theorem Sys.Same.symm {s t : Sys α} (h : s.Same n t) : t.Same n s := ⟨fun r hr => (h.1 r hr).symm, fun c => (h.2 c).symm⟩

theorem resp_stuck : Resp (α := α) n (Sys.stuck n) := by
  intro s t h hs
  refine ⟨fun hd => hs.1 (fun r hr => ?_), ?_⟩
  · obtain ⟨a, ha⟩ := hd r hr
    exact ⟨a, (h.1 r hr).trans ha⟩
  · rintro ⟨u, c, k, hr, -⟩
    exact hs.2 ⟨_, c, k, same_ready h.symm hr, rfl⟩

theorem Goes.congr {φ : Sys α → Prop} (hφ : Resp n φ) {P Q : Nat → Prog α} {W : Comm → Store} (h : Goes n φ P W)
    (hP : ∀ r < n.np, P r = Q r) : Goes n φ Q W := by
  obtain ⟨m, f, hs, hf⟩ := h
  obtain ⟨t', h1, h2⟩ := same_steps (s := ⟨P, W⟩) (s' := ⟨Q, W⟩) ⟨hP, fun _ => rfl⟩ hs
  exact ⟨m, t', h1, hφ _ _ h2 hf⟩

theorem Goes.here {φ : Sys α → Prop} {P : Nat → Prog α} {W : Comm → Store} (h : φ ⟨P, W⟩) : Goes n φ P W :=
  ⟨0, _, .refl _, h⟩

theorem ends_ret (a : Nat → α) (W : Comm → Store) : Ends n (fun r => .ret (a r)) W a W :=
  .here ⟨fun _ _ => rfl, rfl⟩

theorem Goes.bind {φ : Sys β → Prop} (hφ : Resp n φ) {P : Nat → Prog α} {W W' : Comm → Store} {a : Nat → α}
    {F : Nat → α → Prog β} (h : Ends n P W a W') (h' : Goes n φ (fun r => F r (a r)) W') :
    Goes n φ (fun r => (P r).bind (F r)) W := by
  obtain ⟨m, f, hs, hf, hw⟩ := h
  obtain ⟨m', f', hs', hf'⟩ := h'
  have h1 := then_steps (f := F) hs
  have hsame : (Sys.mk (fun r => F r (a r)) W').Same n (f.then F) := by
    refine ⟨fun r hr => ?_, fun c => ?_⟩
    · simp only [Sys.then, hf r hr, Prog.bind]
    · simp only [Sys.then, hw]
  obtain ⟨t', h2, h3⟩ := same_steps hsame hs'
  exact ⟨_, t', h1.trans h2, hφ _ _ h3 hf'⟩

/-- What a completed call on `c` leaves. -/
theorem Goes.fire {φ : Sys α → Prop} (hφ : Resp n φ) {P Q : Nat → Prog α} {W W' : Comm → Store} {c : Comm} {k : CKind}
    {args : Nat → CArg} {next : Nat → List Nat → Prog α} (hne : n.mem c ≠ [])
    (hP : ∀ r ∈ n.mem c, P r = .call c k (args r) (next r))
    (hQ : ∀ r < n.np, Q r = if r ∈ n.mem c then
      next r ((perform k ((n.mem c).map args) (W c)).2 ((n.mem c).idxOf r)) else P r)
    (hW : ∀ d, W' d = if d = c then (perform k ((n.mem c).map args) (W c)).1 else W d)
    (h : Goes n φ Q W') : Goes n φ P W := by
  obtain ⟨m, f, hs, hf⟩ := h
  have hargs : (n.mem c).map (fun r => ((Sys.mk P W).prog r).arg) = (n.mem c).map args :=
    List.map_congr_left (fun r hm => by simp only [hP r hm, Prog.arg])
  have hready : (Sys.mk P W).ready n c k := by
    refine ⟨hne, fun r hm => ?_⟩
    simp only [hP r hm, Prog.at, and_self]
  have hsame : (Sys.mk Q W').Same n ((Sys.mk P W).fire n c k) := by
    refine ⟨fun r hr => ?_, fun d => ?_⟩
    · simp only [Sys.fire, hargs]
      rw [hQ r hr]
      by_cases hm : r ∈ n.mem c
      · simp only [if_pos hm, hP r hm, Prog.next]
      · simp only [if_neg hm]
    · simp only [Sys.fire, hargs]
      exact hW d
  obtain ⟨t', h1, h2⟩ := same_steps hsame hs
  exact ⟨m + 1, t', .head ⟨c, k, hready, rfl⟩ h1, hφ _ _ h2 hf⟩

/-! ### Calls made by all groups -/

theorem mem_comms {c : Comm} : c ∈ n.comms ↔ ∃ r < n.np, n.gc r = c := by
  simp [Net.comms]

theorem mem_gc {sub : Bool} (hok : n.ok sub) {c : Comm} (hc : c ∈ n.comms) {r : Nat} :
    r ∈ n.mem c ↔ r < n.np ∧ n.gc r = c := by
  obtain ⟨q, hq, rfl⟩ := mem_comms.mp hc
  cases hg : n.gc q with
  | world =>
    have hs := (hok.2 q hq).mp hg
    simp only [Net.mem, List.mem_range]
    exact ⟨fun h => ⟨h, (hok.2 r h).mpr hs⟩, fun h => h.1⟩
  | group g => simp [Net.mem]

theorem Goes.list {φ : Sys α → Prop} (hφ : Resp n φ) {sub : Bool} (hok : n.ok sub) {k : CKind} {args : Nat → CArg} {next : Nat → List Nat → Prog α}
    (cs : List Comm) (hnd : cs.Nodup) (hcs : ∀ c ∈ cs, c ∈ n.comms) :
    ∀ {P : Nat → Prog α} {W : Comm → Store}, (∀ r < n.np, n.gc r ∈ cs → P r = .call (n.gc r) k (args r) (next r)) →
    Goes n φ (fun r => if n.gc r ∈ cs then
        next r ((perform k ((n.mem (n.gc r)).map args) (W (n.gc r))).2 ((n.mem (n.gc r)).idxOf r)) else P r)
      (fun c => if c ∈ cs then (perform k ((n.mem c).map args) (W c)).1 else W c) →
    Goes n φ P W := by
  induction cs with
  | nil =>
    intro P W _ h
    simpa using h
  | cons c cs ih =>
    intro P W hP h
    have hc := hcs c List.mem_cons_self
    have hnin : c ∉ cs := (List.nodup_cons.mp hnd).1
    have hm := fun r => mem_gc hok hc (r := r)
    refine Goes.fire hφ (c := c) (k := k) (args := args) (next := next)
      (Q := fun r => if r ∈ n.mem c then next r ((perform k ((n.mem c).map args) (W c)).2 ((n.mem c).idxOf r)) else P r)
      (W' := fun d => if d = c then (perform k ((n.mem c).map args) (W c)).1 else W d) ?_ ?_ (fun _ _ => rfl) (fun _ => rfl) ?_
    · obtain ⟨q, hq, he⟩ := mem_comms.mp hc
      exact List.ne_nil_of_mem ((hm q).mpr ⟨hq, he⟩)
    · intro r hr
      obtain ⟨h1, h2⟩ := (hm r).mp hr
      have := hP r h1 (h2 ▸ List.mem_cons_self)
      rw [h2] at this
      exact this
    · refine ih (List.nodup_cons.mp hnd).2 (fun d hd => hcs d (List.mem_cons_of_mem _ hd)) (fun r hr hg => ?_) ?_
      · have : r ∉ n.mem c := fun hx => hnin (((hm r).mp hx).2 ▸ hg)
        rw [if_neg this]
        exact hP r hr (List.mem_cons_of_mem _ hg)
      · have key : Goes n φ (fun r => if n.gc r ∈ cs then
            next r ((perform k ((n.mem (n.gc r)).map args) (W (n.gc r))).2 ((n.mem (n.gc r)).idxOf r))
            else if r ∈ n.mem c then next r ((perform k ((n.mem c).map args) (W c)).2 ((n.mem c).idxOf r)) else P r)
            (fun d => if d ∈ c :: cs then (perform k ((n.mem d).map args) (W d)).1 else W d) := by
          refine h.congr hφ (fun r hr => ?_)
          by_cases h1 : n.gc r = c
          · have h2 : r ∈ n.mem c := (hm r).mpr ⟨hr, h1⟩
            rw [if_pos (h1 ▸ List.mem_cons_self), if_neg (by rw [h1]; exact hnin), if_pos h2, h1]
          · have h2 : r ∉ n.mem c := fun hx => h1 ((hm r).mp hx).2
            by_cases h3 : n.gc r ∈ cs
            · rw [if_pos (List.mem_cons_of_mem _ h3), if_pos h3]
            · rw [if_neg (by simp [h1, h3]), if_neg h3, if_neg h2]
        have eW : (fun d => if d ∈ cs then (perform k ((n.mem d).map args) (if d = c then (perform k ((n.mem c).map args) (W c)).1
            else W d)).1 else if d = c then (perform k ((n.mem c).map args) (W c)).1 else W d) =
            (fun d => if d ∈ c :: cs then (perform k ((n.mem d).map args) (W d)).1 else W d) := by
          funext d
          by_cases h1 : d = c
          · subst h1
            rw [if_neg hnin, if_pos rfl, if_pos List.mem_cons_self]
          · by_cases h3 : d ∈ cs
            · rw [if_pos h3, if_neg h1, if_pos (List.mem_cons_of_mem _ h3)]
            · rw [if_neg h3, if_neg h1, if_neg (by simp [h1, h3])]
        rw [eW]
        refine key.congr hφ (fun r hr => ?_)
        by_cases h3 : n.gc r ∈ cs
        · rw [if_pos h3, if_pos h3, if_neg (fun e : n.gc r = c => hnin (e ▸ h3))]
        · rw [if_neg h3, if_neg h3]

/-- Result of a call by all processes of the group of `r`. -/
def Net.res (n : Net) (k : CKind) (args : Nat → CArg) (W : Comm → Store) (r : Nat) : List Nat :=
  (perform k ((n.mem (n.gc r)).map args) (W (n.gc r))).2 ((n.mem (n.gc r)).idxOf r)

/-- Files after a call by the groups `act`. -/
def Net.put (n : Net) (k : CKind) (act : Comm → Bool) (args : Nat → CArg) (W : Comm → Store) (c : Comm) : Store :=
  if c ∈ n.comms ∧ act c then (perform k ((n.mem c).map args) (W c)).1 else W c

/-- All groups `act` make the call `k`. -/
theorem Goes.groups {φ : Sys α → Prop} (hφ : Resp n φ) {sub : Bool} (hok : n.ok sub) {k : CKind} (act : Comm → Bool) {args : Nat → CArg}
    {next : Nat → List Nat → Prog α} {P Q : Nat → Prog α} {W : Comm → Store}
    (hP : ∀ r < n.np, act (n.gc r) = true → P r = .call (n.gc r) k (args r) (next r))
    (hQ : ∀ r < n.np, Q r = if act (n.gc r) then next r (n.res k args W r) else P r)
    (h : Goes n φ Q (n.put k act args W)) : Goes n φ P W := by
  have hmem : ∀ c, c ∈ n.comms.filter act ↔ c ∈ n.comms ∧ act c = true := fun c => List.mem_filter
  refine Goes.list hφ hok (k := k) (args := args) (next := next) (n.comms.filter act)
    ((List.nodup_dedup _).filter _) (fun c hc => ((hmem c).mp hc).1) (fun r hr hg => hP r hr ((hmem _).mp hg).2) ?_
  have eW : (fun c => if c ∈ n.comms.filter act then (perform k ((n.mem c).map args) (W c)).1 else W c) =
      n.put k act args W := by
    funext c
    simp only [hmem, Net.put]
  rw [eW]
  refine h.congr hφ (fun r hr => ?_)
  have hin : n.gc r ∈ n.comms := mem_comms.mpr ⟨r, hr, rfl⟩
  rw [hQ r hr]
  by_cases h1 : act (n.gc r) = true
  · rw [if_pos h1, if_pos ((hmem _).mpr ⟨hin, h1⟩)]
    rfl
  · rw [if_neg h1, if_neg (fun hx => h1 ((hmem _).mp hx).2)]

/-- All processes make the call `k` on the communicator of the file. -/
theorem Goes.world {φ : Sys α → Prop} (hφ : Resp n φ) (h0 : 0 < n.np) {k : CKind} {args : Nat → CArg} {next : Nat → List Nat → Prog α} {P : Nat → Prog α}
    {W : Comm → Store} (hP : ∀ r < n.np, P r = .call .world k (args r) (next r))
    (h : Goes n φ (fun r => next r ((perform k ((List.range n.np).map args) (W .world)).2 r))
      (fun c => if c = .world then (perform k ((List.range n.np).map args) (W .world)).1 else W c)) :
    Goes n φ P W := by
  have hm : ∀ r, r ∈ n.mem .world ↔ r < n.np := fun r => List.mem_range
  refine Goes.fire hφ (c := .world) (k := k) (args := args) (next := next)
    (W' := fun c => if c = .world then (perform k ((List.range n.np).map args) (W .world)).1 else W c)
    (List.ne_nil_of_mem ((hm 0).mpr h0)) (fun r hr => hP r ((hm r).mp hr)) (fun r hr => rfl) (fun _ => rfl) ?_
  refine h.congr hφ (fun r hr => ?_)
  rw [if_pos ((hm r).mpr hr)]
  have : (List.range n.np).idxOf r = r := by
    have := (List.nodup_range (n := n.np)).idxOf_getElem r (by simpa using hr)
    simpa using this
  simp only [Net.mem, this]

end Verif
