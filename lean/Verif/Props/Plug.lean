import Verif.Model.Plug

/-
C63: loading and unloading the connector.
-/

namespace Verif.Props

/-- A cycle in which the library has room for everything. -/
def plugCycle : List PlugOp := [.load true true, .unload]

theorem plugRun_append (p : Plug) : ∀ (a b : List PlugOp), plugRun p (a ++ b) = (plugRun p a).bind fun q => plugRun q b := by
  intro a
  induction a generalizing p with
  | nil => intro b; rfl
  | cons o os ih =>
    intro b
    simp only [List.cons_append, plugRun]
    cases h : plugStep p o with
    | ok q => simp only [Res.bind]; exact ih q b
    | err => rfl
    | ub => rfl

/-- Between uses of the connector. -/
def Idle (p : Plug) : Prop := p.reg = false ∧ p.opW = false ∧ p.opR = false ∧ p.loaded = false

/-- The connector can be used. -/
def Usable (p : Plug) : Prop := p.loaded = true ∧ p.mpi = .up ∧ p.opW = true ∧ p.opR = true

/-- One cycle while MPI is in use by the application. -/
theorem plug_cycle {p : Plug} (h : Idle p) (hm : p.mpi = .up) :
    ∃ q, plugRun p [.load true true] = .ok q ∧ Usable q ∧ q.inits = p.inits ∧ q.finals = p.finals ∧
      plugRun p plugCycle = .ok { p with inited := true } := by
  obtain ⟨i, g, w, r, m, a, b, l⟩ := p
  obtain ⟨h1, h2, h3, h4⟩ := h
  simp only at h1 h2 h3 h4 hm
  subst h1 h2 h3 h4 hm
  exact ⟨⟨true, true, true, true, .up, a, b, true⟩, rfl, ⟨rfl, rfl, rfl, rfl⟩, rfl, rfl, rfl⟩

theorem plug_cycles {p : Plug} (h : Idle p) (hm : p.mpi = .up) : ∀ n : Nat,
    ∃ q, plugRun p (List.replicate n plugCycle).flatten = .ok q ∧ Idle q ∧ q.mpi = .up ∧ q.inits = p.inits ∧ q.finals = p.finals := by
  intro n
  induction n with
  | zero => exact ⟨p, rfl, h, hm, rfl, rfl⟩
  | succ n ih =>
    obtain ⟨q, e, hi, hu, e1, e2⟩ := ih
    rw [List.replicate_succ', List.flatten_append, plugRun_append, e]
    obtain ⟨-, -, -, -, -, e3⟩ := plug_cycle hi hu
    exact ⟨{ q with inited := true }, by simpa [Res.bind] using e3, hi, hu, e1, e2⟩

/-- C63, partial: if the application has initialised MPI and finalises it at the end, the connector can be loaded and unloaded any
number of times before, and once more without being unloaded before MPI is finalised; it is usable each time, and it neither
initialises nor finalises MPI. -/
theorem C63_app_partial {p : Plug} (h : Idle p) (hm : p.mpi = .up) (n : Nat) :
    (∃ q, plugRun p ((List.replicate n plugCycle).flatten ++ [.load true true]) = .ok q ∧ Usable q ∧ q.inits = p.inits ∧
      q.finals = p.finals) ∧
    (∃ q, plugRun p ((List.replicate n plugCycle).flatten ++ [.appFinal]) = .ok q ∧ q.inits = p.inits ∧ q.finals = p.finals + 1) ∧
    (∃ q, plugRun p ((List.replicate n plugCycle).flatten ++ [.load true true, .appFinal, .unload]) = .ok q ∧
      q.inits = p.inits ∧ q.finals = p.finals + 1) := by
  obtain ⟨q, e, hi, hu, e1, e2⟩ := plug_cycles h hm n
  obtain ⟨q1, f1, hu1, g1, g2, -⟩ := plug_cycle hi hu
  refine ⟨⟨q1, ?_, hu1, g1.trans e1, g2.trans e2⟩, ⟨{ q with mpi := .over, finals := q.finals + 1 }, ?_, e1, by rw [← e2]⟩, ?_⟩
  · rw [plugRun_append, e]; exact f1
  · rw [plugRun_append, e]; simp [Res.bind, plugRun, plugStep, mpiFinal, hu]
  · obtain ⟨i, g, w, r, m, a, b, l⟩ := q
    obtain ⟨h1, h2, h3, h4⟩ := hi
    simp only at h1 h2 h3 h4 hu e1 e2
    subst h1 h2 h3 h4 hu e1 e2
    exact ⟨⟨true, false, false, false, .over, _, p.finals + 1, false⟩, by rw [plugRun_append, e]; rfl, rfl, rfl⟩

example : Idle (Plug.start .up) ∧ (Plug.start .up).mpi = .up := ⟨⟨rfl, rfl, rfl, rfl⟩, rfl⟩

/-- C63, partial: without MPI in the application, the first use of the connector initialises it and finalises it at the end. -/
theorem C63_first_partial : ∃ p q, plugRun (Plug.start .down) [.load true true] = .ok p ∧ Usable p ∧ p.inits = 1 ∧
    plugRun (Plug.start .down) plugCycle = .ok q ∧ q.mpi = .over ∧ q.inits = 1 ∧ q.finals = 1 ∧ Idle q :=
  ⟨⟨false, true, true, true, .up, 1, 0, true⟩, ⟨true, false, false, false, .over, 1, 1, false⟩, rfl, ⟨rfl, rfl, rfl, rfl⟩, rfl, rfl,
    rfl, rfl, rfl, rfl, rfl, rfl, rfl⟩

/-- C63 is violated: then it can be loaded again, any number of times, without an error, but never be used again: MPI is over. -/
theorem C63_reload_violated (n : Nat) : ∃ p,
    plugRun (Plug.start .down) (plugCycle ++ (List.replicate n plugCycle).flatten ++ [.load true true]) = .ok p ∧ p.loaded = true ∧
      p.mpi = .over ∧ ¬ Usable p := by
  have key : ∀ n, plugRun ⟨true, false, false, false, .over, 1, 1, false⟩ (List.replicate n plugCycle).flatten =
      .ok ⟨true, false, false, false, .over, 1, 1, false⟩ := by
    intro n
    induction n with
    | zero => rfl
    | succ n ih =>
      rw [List.replicate_succ, List.flatten_cons, plugRun_append]
      exact ih
  refine ⟨⟨true, true, true, true, .over, 1, 1, true⟩, ?_, rfl, rfl, fun h => by cases h.2.1⟩
  rw [List.append_assoc, plugRun_append]
  show plugRun ⟨true, false, false, false, .over, 1, 1, false⟩ _ = _
  rw [plugRun_append, key]
  rfl

/-- C63 is violated: if the connector has initialised MPI and the application finalises it, unloading the connector finalises it a
second time: `MPI_Initialized` stays true after `MPI_Finalize`. -/
theorem C63_finalize_violated : plugRun (Plug.start .down) [.load true true, .appFinal, .unload] = .ub := rfl

/-- C63 is violated: if the connector is loaded and unloaded before the application initialises MPI, the application cannot use
MPI any more. -/
theorem C63_late_violated (n : Nat) :
    plugRun (Plug.start .down) (plugCycle ++ (List.replicate n plugCycle).flatten ++ [.appInit]) = .ub := by
  have key : ∀ n, plugRun ⟨true, false, false, false, .over, 1, 1, false⟩ (List.replicate n plugCycle).flatten =
      .ok ⟨true, false, false, false, .over, 1, 1, false⟩ := by
    intro n
    induction n with
    | zero => rfl
    | succ n ih =>
      rw [List.replicate_succ, List.flatten_cons, plugRun_append]
      exact ih
  rw [List.append_assoc, plugRun_append]
  show plugRun ⟨true, false, false, false, .over, 1, 1, false⟩ _ = _
  rw [plugRun_append, key]
  rfl

/-- C63 is violated: if the second operation cannot be registered, the first stays registered, and the connector can never be
loaded again, whatever room the library has later. -/
theorem C63_retry_violated (mpi : MpiSt) (ws : List (Bool × Bool)) (p : Plug)
    (h : plugRun (Plug.start mpi) (.load true false :: ws.map fun x => .load x.1 x.2) = .ok p) : p.loaded = false := by
  have key : ∀ (ws : List (Bool × Bool)) (s : Plug), s.reg = false → s.opW = true → s.loaded = false → s.mpi ≠ .down →
      ∀ p, plugRun s (ws.map fun x => .load x.1 x.2) = .ok p → p.loaded = false := by
    intro ws
    induction ws with
    | nil => intro s _ _ h3 _ p hp; cases hp; exact h3
    | cons x xs ih =>
      intro s h1 h2 h3 h4 p hp
      obtain ⟨i, g, w, r, m, a, b, l⟩ := s
      simp only at h1 h2 h3 h4
      subst h1 h2 h3
      have hs : plugStep ⟨i, false, true, r, m, a, b, false⟩ (.load x.1 x.2) = .ok ⟨true, false, true, r, m, a, b, false⟩ := by
        simp [plugStep, plugInit, mpiInited, h4, Res.bind]
      simp only [List.map_cons, plugRun, hs, Res.bind] at hp
      exact ih _ rfl rfl rfl h4 p hp
  cases mpi with
  | down => exact key ws ⟨false, false, true, false, .up, 1, 0, false⟩ rfl rfl rfl (by decide) p h
  | up => exact key ws ⟨true, false, true, false, .up, 0, 0, false⟩ rfl rfl rfl (by decide) p h
  | over => exact key ws ⟨true, false, true, false, .over, 0, 0, false⟩ rfl rfl rfl (by decide) p h

example : ∃ p, plugRun (Plug.start .up) [.load true false, .load true true] = .ok p ∧ p.loaded = false :=
  ⟨⟨true, false, true, false, .up, 0, 0, false⟩, rfl, rfl⟩

end Verif.Props
