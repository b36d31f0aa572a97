import Verif.Model.Owner

/-
The possible outcomes of a command as a list, which is exactly what `Runs` allows; what a command leaves alone; how commands
end normally.
-/

namespace Verif.Owner

/-- A failure whatever the outcome of the handler. -/
def Out.toThrown : Out → Out
  | .done s => .thrown s
  | o => o

/-- All outcomes. -/
def outs (can : Tok → Bool) : Cmd → St → List Out
  | .skip, s => [.done s]
  | .seq a b, s => (outs can a s).flatMap (fun o => match o with
      | .done s₁ => outs can b s₁
      | o => [o])
  | .get t, s => (if can t then [.done (s.add t)] else []) ++ [.thrown s]
  | .getU t, s => (if can t then [.done (s.add t)] else []) ++ [.done s]
  | .own t, s => [.done (s.add t)]
  | .call, s => [.done s, .thrown s]
  | .fail, s => [.thrown s]
  | .put t, s => if 0 < s.held t then [.done (s.drop t)] else [.ub]
  | .putIf t, s => [.done (s.drop t)]
  | .demand t, s => if 0 < s.held t then [.done s] else [.thrown s]
  | .mark v, s => [.done (s.mark v)]
  | .use v, s => if s.isSet v then [.done s] else [.ub]
  | .scope body handler fin, s => (outs can body s).flatMap (fun o => match o with
      | .done s₁ => outs can fin s₁
      | .thrown s₁ => ((outs can handler s₁).flatMap (fun o => match o with
          | .done s₂ => outs can fin s₂
          | o => [o])).map Out.toThrown
      | .ub => [.ub])

theorem mem_seq {can : Tok → Bool} {a b : Cmd} (ha : ∀ s o, Runs can a s o ↔ o ∈ outs can a s)
    (hb : ∀ s o, Runs can b s o ↔ o ∈ outs can b s) (s : St) (o : Out) :
    Runs can (.seq a b) s o ↔ o ∈ outs can (.seq a b) s := by
  simp only [outs, List.mem_flatMap]
  constructor
  · intro h
    cases h with
    | seqDone h1 h2 => exact ⟨_, (ha _ _).1 h1, by simpa using (hb _ _).1 h2⟩
    | seqThrown h1 => exact ⟨_, (ha _ _).1 h1, by simp⟩
    | seqUb h1 => exact ⟨_, (ha _ _).1 h1, by simp⟩
  · rintro ⟨o', h1, h2⟩
    cases o' with
    | done s₁ => exact .seqDone ((ha _ _).2 h1) ((hb _ _).2 h2)
    | thrown s₁ =>
      simp only [List.mem_singleton] at h2
      subst h2
      exact .seqThrown ((ha _ _).2 h1)
    | ub =>
      simp only [List.mem_singleton] at h2
      subst h2
      exact .seqUb ((ha _ _).2 h1)

/-- The list holds exactly the outcomes of the runs. -/
theorem mem_outs (can : Tok → Bool) (c : Cmd) : ∀ s o, Runs can c s o ↔ o ∈ outs can c s := by
  induction c with
  | skip =>
    intro s o
    simp only [outs, List.mem_singleton]
    exact ⟨fun h => by cases h; rfl, fun h => by subst h; exact .skip⟩
  | seq a b iha ihb => exact mem_seq iha ihb
  | get t =>
    intro s o
    simp only [outs, List.mem_append, List.mem_singleton]
    constructor
    · intro h
      cases h with
      | getOk hc => left; simp [hc]
      | getFail => right; rfl
    · rintro (h | h)
      · split at h
        · rename_i hc
          simp only [List.mem_singleton] at h
          subst h
          exact .getOk hc
        · simp at h
      · subst h
        exact .getFail
  | getU t =>
    intro s o
    simp only [outs, List.mem_append, List.mem_singleton]
    constructor
    · intro h
      cases h with
      | getUOk hc => left; simp [hc]
      | getUFail => right; rfl
    · rintro (h | h)
      · split at h
        · rename_i hc
          simp only [List.mem_singleton] at h
          subst h
          exact .getUOk hc
        · simp at h
      · subst h
        exact .getUFail
  | own t =>
    intro s o
    simp only [outs, List.mem_singleton]
    exact ⟨fun h => by cases h; rfl, fun h => by subst h; exact .own⟩
  | call =>
    intro s o
    simp only [outs, List.mem_cons, List.not_mem_nil, or_false]
    constructor
    · intro h
      cases h with
      | callOk => left; rfl
      | callFail => right; rfl
    · rintro (h | h)
      · subst h
        exact .callOk
      · subst h
        exact .callFail
  | fail =>
    intro s o
    simp only [outs, List.mem_singleton]
    exact ⟨fun h => by cases h; rfl, fun h => by subst h; exact .fail⟩
  | put t =>
    intro s o
    simp only [outs]
    constructor
    · intro h
      cases h with
      | putOk hp => simp [hp]
      | putUb hp => simp [hp]
    · intro h
      split at h
      · rename_i hp
        simp only [List.mem_singleton] at h
        subst h
        exact .putOk hp
      · rename_i hp
        simp only [List.mem_singleton] at h
        subst h
        exact .putUb (by omega)
  | putIf t =>
    intro s o
    simp only [outs, List.mem_singleton]
    exact ⟨fun h => by cases h; rfl, fun h => by subst h; exact .putIf⟩
  | demand t =>
    intro s o
    simp only [outs]
    constructor
    · intro h
      cases h with
      | demandOk hp => simp [hp]
      | demandFail hp => simp [hp]
    · intro h
      split at h
      · rename_i hp
        simp only [List.mem_singleton] at h
        subst h
        exact .demandOk hp
      · rename_i hp
        simp only [List.mem_singleton] at h
        subst h
        exact .demandFail (by omega)
  | mark v =>
    intro s o
    simp only [outs, List.mem_singleton]
    exact ⟨fun h => by cases h; rfl, fun h => by subst h; exact .mark⟩
  | use v =>
    intro s o
    simp only [outs]
    constructor
    · intro h
      cases h with
      | useOk hp => simp [hp]
      | useUb hp => simp [hp]
    · intro h
      split at h
      · rename_i hp
        simp only [List.mem_singleton] at h
        subst h
        exact .useOk hp
      · rename_i hp
        simp only [List.mem_singleton] at h
        subst h
        exact .useUb (by simpa using hp)
  | scope body handler fin ihb ihh ihf =>
    intro s o
    have hs := mem_seq ihh ihf
    simp only [outs, List.mem_flatMap]
    constructor
    · intro h
      cases h with
      | scopeDone h1 h2 => exact ⟨_, (ihb _ _).1 h1, by simpa using (ihf _ _).1 h2⟩
      | scopeThrown h1 h2 =>
        refine ⟨_, (ihb _ _).1 h1, ?_⟩
        have h3 := (hs _ _).1 h2
        simp only [outs] at h3
        exact List.mem_map.2 ⟨_, h3, rfl⟩
      | scopeThrown' h1 h2 =>
        refine ⟨_, (ihb _ _).1 h1, ?_⟩
        have h3 := (hs _ _).1 h2
        simp only [outs] at h3
        exact List.mem_map.2 ⟨_, h3, rfl⟩
      | scopeThrownUb h1 h2 =>
        refine ⟨_, (ihb _ _).1 h1, ?_⟩
        have h3 := (hs _ _).1 h2
        simp only [outs] at h3
        exact List.mem_map.2 ⟨_, h3, rfl⟩
      | scopeUb h1 => exact ⟨_, (ihb _ _).1 h1, by simp⟩
    · rintro ⟨o', h1, h2⟩
      cases o' with
      | done s₁ => exact .scopeDone ((ihb _ _).2 h1) ((ihf _ _).2 h2)
      | thrown s₁ =>
        simp only [List.mem_map] at h2
        obtain ⟨o₂, h3, h4⟩ := h2
        have h5 : Runs can (.seq handler fin) s₁ o₂ := (hs _ _).2 (by simpa only [outs] using h3)
        cases o₂ with
        | done s₂ => subst h4; exact .scopeThrown ((ihb _ _).2 h1) h5
        | thrown s₂ => subst h4; exact .scopeThrown' ((ihb _ _).2 h1) h5
        | ub => subst h4; exact .scopeThrownUb ((ihb _ _).2 h1) h5
      | ub =>
        simp only [List.mem_singleton] at h2
        subst h2
        exact .scopeUb ((ihb _ _).2 h1)

/-- What cannot happen does not happen when less can be acquired. -/
theorem Runs.mono {can can' : Tok → Bool} {c : Cmd} {s : St} {o : Out} (h : Runs can c s o)
    (hc : ∀ t, can t = true → can' t = true) : Runs can' c s o := by
  induction h with
  | skip => exact .skip
  | seqDone _ _ h1 h2 => exact .seqDone h1 h2
  | seqThrown _ h1 => exact .seqThrown h1
  | seqUb _ h1 => exact .seqUb h1
  | getOk h => exact .getOk (hc _ h)
  | getFail => exact .getFail
  | getUOk h => exact .getUOk (hc _ h)
  | getUFail => exact .getUFail
  | own => exact .own
  | callOk => exact .callOk
  | callFail => exact .callFail
  | fail => exact .fail
  | putOk h => exact .putOk h
  | putUb h => exact .putUb h
  | putIf => exact .putIf
  | demandOk h => exact .demandOk h
  | demandFail h => exact .demandFail h
  | mark => exact .mark
  | useOk h => exact .useOk h
  | useUb h => exact .useUb h
  | scopeDone _ _ h1 h2 => exact .scopeDone h1 h2
  | scopeThrown _ _ h1 h2 => exact .scopeThrown h1 h2
  | scopeThrown' _ _ h1 h2 => exact .scopeThrown' h1 h2
  | scopeThrownUb _ _ h1 h2 => exact .scopeThrownUb h1 h2
  | scopeUb _ h1 => exact .scopeUb h1

/-! ### How commands end normally -/

variable {can : Tok → Bool} {s s' : St}

theorem done_skip : Runs can .skip s (.done s') ↔ s' = s :=
  ⟨fun h => by cases h; rfl, fun h => by subst h; exact .skip⟩

theorem done_seq {a b : Cmd} : Runs can (.seq a b) s (.done s') ↔ ∃ s₁, Runs can a s (.done s₁) ∧ Runs can b s₁ (.done s') :=
  ⟨fun h => by cases h with | seqDone h1 h2 => exact ⟨_, h1, h2⟩, fun ⟨_, h1, h2⟩ => .seqDone h1 h2⟩

theorem done_get {t : Tok} : Runs can (.get t) s (.done s') ↔ can t = true ∧ s' = s.add t :=
  ⟨fun h => by cases h with | getOk h => exact ⟨h, rfl⟩, fun ⟨h, e⟩ => by subst e; exact .getOk h⟩

theorem done_getU {t : Tok} : Runs can (.getU t) s (.done s') ↔ (can t = true ∧ s' = s.add t) ∨ s' = s :=
  ⟨fun h => by
    cases h with
    | getUOk h => exact Or.inl ⟨h, rfl⟩
    | getUFail => exact Or.inr rfl,
   fun h => by
    rcases h with ⟨h, e⟩ | e
    · subst e; exact .getUOk h
    · subst e; exact .getUFail⟩

theorem done_own {t : Tok} : Runs can (.own t) s (.done s') ↔ s' = s.add t :=
  ⟨fun h => by cases h; rfl, fun h => by subst h; exact .own⟩

theorem done_call : Runs can .call s (.done s') ↔ s' = s :=
  ⟨fun h => by cases h; rfl, fun h => by subst h; exact .callOk⟩

theorem done_put {t : Tok} : Runs can (.put t) s (.done s') ↔ 0 < s.held t ∧ s' = s.drop t :=
  ⟨fun h => by cases h with | putOk h => exact ⟨h, rfl⟩, fun ⟨h, e⟩ => by subst e; exact .putOk h⟩

theorem done_putIf {t : Tok} : Runs can (.putIf t) s (.done s') ↔ s' = s.drop t :=
  ⟨fun h => by cases h; rfl, fun h => by subst h; exact .putIf⟩

theorem done_demand {t : Tok} : Runs can (.demand t) s (.done s') ↔ 0 < s.held t ∧ s' = s :=
  ⟨fun h => by cases h with | demandOk h => exact ⟨h, rfl⟩, fun ⟨h, e⟩ => by subst e; exact .demandOk h⟩

theorem done_mark {v : Var} : Runs can (.mark v) s (.done s') ↔ s' = s.mark v :=
  ⟨fun h => by cases h; rfl, fun h => by subst h; exact .mark⟩

theorem done_use {v : Var} : Runs can (.use v) s (.done s') ↔ s.isSet v = true ∧ s' = s :=
  ⟨fun h => by cases h with | useOk h => exact ⟨h, rfl⟩, fun ⟨h, e⟩ => by subst e; exact .useOk h⟩

theorem done_scope {b h f : Cmd} :
    Runs can (.scope b h f) s (.done s') ↔ ∃ s₁, Runs can b s (.done s₁) ∧ Runs can f s₁ (.done s') :=
  ⟨fun h => by cases h with | scopeDone h1 h2 => exact ⟨_, h1, h2⟩, fun ⟨_, h1, h2⟩ => .scopeDone h1 h2⟩

/-! ### What a command leaves alone -/

/-- The resources a command deals with. -/
def Cmd.toks : Cmd → List Tok
  | .seq a b => a.toks ++ b.toks
  | .get t => [t]
  | .getU t => [t]
  | .own t => [t]
  | .put t => [t]
  | .putIf t => [t]
  | .scope b h f => b.toks ++ (h.toks ++ f.toks)
  | _ => []

/-- The final state, if any. -/
def Out.st? : Out → Option St
  | .done s => some s
  | .thrown s => some s
  | .ub => none

theorem held_add {s : St} {t u : Tok} : (s.add t).held u = if u = t then s.held u + 1 else s.held u := rfl
theorem held_drop {s : St} {t u : Tok} : (s.drop t).held u = if u = t then s.held u - 1 else s.held u := rfl
theorem held_mark {s : St} {v : Var} {u : Tok} : (s.mark v).held u = s.held u := rfl
theorem set_add {s : St} {t : Tok} {v : Var} : (s.add t).isSet v = s.isSet v := rfl
theorem set_drop {s : St} {t : Tok} {v : Var} : (s.drop t).isSet v = s.isSet v := rfl
theorem set_mark {s : St} {u v : Var} : (s.mark u).isSet v = if v = u then true else s.isSet v := rfl

/-- What a command does not deal with is held as before. -/
theorem Runs.frame {c : Cmd} {o : Out} (h : Runs can c s o) {t : Tok} (ht : t ∉ c.toks) :
    ∀ s', o.st? = some s' → s'.held t = s.held t := by
  induction h with
  | seqDone _ _ h1 h2 =>
    simp only [Cmd.toks, List.mem_append, not_or] at ht
    intro s' hs'
    rw [h2 ht.2 s' hs', h1 ht.1 _ rfl]
  | seqThrown _ h1 =>
    simp only [Cmd.toks, List.mem_append, not_or] at ht
    exact h1 ht.1
  | scopeDone _ _ h1 h2 =>
    simp only [Cmd.toks, List.mem_append, not_or] at ht
    intro s' hs'
    rw [h2 ht.2.2 s' hs', h1 ht.1 _ rfl]
  | scopeThrown _ _ h1 h2 =>
    simp only [Cmd.toks, List.mem_append, not_or] at ht
    intro s' hs'
    simp only [Out.st?, Option.some.injEq] at hs'
    subst hs'
    rw [h2 (by simp only [Cmd.toks, List.mem_append, not_or]; exact ht.2) _ rfl, h1 ht.1 _ rfl]
  | scopeThrown' _ _ h1 h2 =>
    simp only [Cmd.toks, List.mem_append, not_or] at ht
    intro s' hs'
    simp only [Out.st?, Option.some.injEq] at hs'
    subst hs'
    rw [h2 (by simp only [Cmd.toks, List.mem_append, not_or]; exact ht.2) _ rfl, h1 ht.1 _ rfl]
  | _ =>
    intro s' hs'
    first
      | (simp only [Out.st?, Option.some.injEq] at hs'
         subst hs'
         simp only [Cmd.toks, List.mem_singleton] at ht
         simp [held_add, held_drop, held_mark, ht])
      | simp [Out.st?] at hs'

/-- The command releases nothing. -/
def Cmd.keeps : Cmd → Bool
  | .seq a b => a.keeps && b.keeps
  | .put _ => false
  | .putIf _ => false
  | .scope b h f => b.keeps && h.keeps && f.keeps
  | _ => true

theorem Runs.keep {c : Cmd} {o : Out} (h : Runs can c s o) (hk : c.keeps = true) :
    ∀ s', o.st? = some s' → ∀ t, s.held t ≤ s'.held t := by
  induction h with
  | seqDone _ _ h1 h2 =>
    simp only [Cmd.keeps, Bool.and_eq_true] at hk
    intro s' hs' t
    exact Nat.le_trans (h1 hk.1 _ rfl t) (h2 hk.2 s' hs' t)
  | seqThrown _ h1 =>
    simp only [Cmd.keeps, Bool.and_eq_true] at hk
    exact h1 hk.1
  | scopeDone _ _ h1 h2 =>
    simp only [Cmd.keeps, Bool.and_eq_true] at hk
    intro s' hs' t
    exact Nat.le_trans (h1 hk.1.1 _ rfl t) (h2 hk.2 s' hs' t)
  | scopeThrown _ _ h1 h2 =>
    simp only [Cmd.keeps, Bool.and_eq_true] at hk
    intro s' hs' t
    simp only [Out.st?, Option.some.injEq] at hs'
    subst hs'
    exact Nat.le_trans (h1 hk.1.1 _ rfl t) (h2 (by simp only [Cmd.keeps, Bool.and_eq_true]; exact ⟨hk.1.2, hk.2⟩) _ rfl t)
  | scopeThrown' _ _ h1 h2 =>
    simp only [Cmd.keeps, Bool.and_eq_true] at hk
    intro s' hs' t
    simp only [Out.st?, Option.some.injEq] at hs'
    subst hs'
    exact Nat.le_trans (h1 hk.1.1 _ rfl t) (h2 (by simp only [Cmd.keeps, Bool.and_eq_true]; exact ⟨hk.1.2, hk.2⟩) _ rfl t)
  | _ =>
    intro s' hs' t
    first
      | (simp only [Out.st?, Option.some.injEq] at hs'
         subst hs'
         first
           | exact Nat.le_refl _
           | (simp only [held_add]; split <;> omega)
           | simp [Cmd.keeps] at hk)
      | simp [Out.st?] at hs'

/-- The set fields stay set. -/
theorem Runs.set_mono {c : Cmd} {o : Out} (h : Runs can c s o) {v : Var} (hv : s.isSet v = true) :
    ∀ s', o.st? = some s' → s'.isSet v = true := by
  induction h with
  | seqDone _ _ h1 h2 => exact fun s' hs' => h2 (h1 hv _ rfl) s' hs'
  | seqThrown _ h1 => exact h1 hv
  | scopeDone _ _ h1 h2 => exact fun s' hs' => h2 (h1 hv _ rfl) s' hs'
  | scopeThrown _ _ h1 h2 =>
    intro s' hs'
    simp only [Out.st?, Option.some.injEq] at hs'
    subst hs'
    exact h2 (h1 hv _ rfl) _ rfl
  | scopeThrown' _ _ h1 h2 =>
    intro s' hs'
    simp only [Out.st?, Option.some.injEq] at hs'
    subst hs'
    exact h2 (h1 hv _ rfl) _ rfl
  | _ =>
    intro s' hs'
    first
      | (simp only [Out.st?, Option.some.injEq] at hs'
         subst hs'
         simp [set_add, set_drop, set_mark, hv])
      | simp [Out.st?] at hs'

end Verif.Owner
