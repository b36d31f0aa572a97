import Verif.Model.Optional

/-
C82: H5Dwrite_n, H5Dread_n and the queries about the connector, in every sequence of loads and unloads of the connector and
registrations of operations by other connectors.
-/

namespace Verif.Props

/-- The numbers that other connectors are given in a sequence of events. -/
def optGiven : OptSt → List OptEv → List Nat
  | _, [] => []
  | s, e :: es => (match e with
      | .other name => ((s.reg.add name).map Prod.fst).toList
      | _ => []) ++ optGiven (optStep s e) es

/-- The connector has been loaded at some time. -/
def OnceLoaded (s : OptSt) (es : List OptEv) : Prop := ∃ es1 es2, es = es1 ++ es2 ∧ (optRun s es1).loaded = true

/-! ### Invariant -/

structure OptInv (lo : Nat) (given : List Nat) (s : OptSt) : Prop where
  next : lo ≤ s.reg.next
  lt : ∀ n ∈ given, n < s.reg.next
  w : s.wval = 0 ∨ (lo ≤ s.wval ∧ s.wval < s.reg.next ∧ s.wval ∉ given)
  r : s.rval = 0 ∨ (lo ≤ s.rval ∧ s.rval < s.reg.next ∧ s.rval ∉ given)
  both : s.flag = true → s.wval ≠ 0 ∧ s.rval ≠ 0 ∧ s.wval ≠ s.rval
  load : s.loaded = true → s.flag = true

theorem add_some {g g' : OptReg} {name : String} {n : Nat} (h : g.add name = some (n, g')) : n = g.next ∧ g'.next = g.next + 1 := by
  unfold OptReg.add at h
  split at h
  · simp at h
  · simp only [Option.some.injEq, Prod.mk.injEq] at h
    obtain ⟨rfl, rfl⟩ := h
    exact ⟨rfl, rfl⟩

theorem del_some {g g' : OptReg} {name : String} (h : g.del name = some g') : g'.next = g.next := by
  unfold OptReg.del at h
  split at h
  · simp only [Option.some.injEq] at h
    rw [← h]
  · simp at h

theorem OptInv.grow {lo : Nat} {given : List Nat} {s : OptSt} (h : OptInv lo given s) {g : OptReg} (hg : s.reg.next ≤ g.next) :
    OptInv lo given { s with reg := g } :=
  ⟨Nat.le_trans h.next hg, fun n hn => Nat.lt_of_lt_of_le (h.lt n hn) hg,
    h.w.imp_right (fun k => ⟨k.1, Nat.lt_of_lt_of_le k.2.1 hg, k.2.2⟩),
    h.r.imp_right (fun k => ⟨k.1, Nat.lt_of_lt_of_le k.2.1 hg, k.2.2⟩), h.both, h.load⟩

theorem OptInv.drop {lo : Nat} {given : List Nat} {s : OptSt} (h : OptInv lo given s) : OptInv lo given { s with loaded := false } :=
  ⟨h.next, h.lt, h.w, h.r, h.both, fun hl => by simp at hl⟩

theorem inv_load {lo : Nat} (hlo : 0 < lo) {given : List Nat} {s : OptSt} (h : OptInv lo given s) : OptInv lo given (optLoad s) := by
  have hn := h.next
  have fresh : s.reg.next ∉ given := fun hm => Nat.lt_irrefl _ (h.lt _ hm)
  unfold optLoad
  by_cases hf : s.flag = true
  · rw [if_pos hf]
    exact ⟨h.next, h.lt, h.w, h.r, h.both, fun _ => hf⟩
  rw [if_neg hf]
  cases ha : s.reg.add optW with
  | none => exact h
  | some p =>
    obtain ⟨w, g⟩ := p
    obtain ⟨rfl, hg⟩ := add_some ha
    simp only
    cases hb : g.add optR with
    | none =>
      have h' := h.grow (g := g) (by omega)
      refine ⟨h'.next, h'.lt, .inr ⟨h.next, by simp only; omega, fresh⟩, h'.r, fun hx => absurd hx hf, fun hx => absurd (h.load hx) hf⟩
    | some p =>
      obtain ⟨r, g'⟩ := p
      obtain ⟨rfl, hg'⟩ := add_some hb
      have h' := h.grow (g := g') (by omega)
      refine ⟨h'.next, h'.lt, .inr ⟨h.next, by simp only; omega, fresh⟩, .inr ⟨by simp only; omega, by simp only; omega, ?_⟩, fun _ => ?_, fun _ => rfl⟩
      · show g.next ∉ given
        intro hm
        have := h.lt _ hm
        omega
      · show s.reg.next ≠ 0 ∧ g.next ≠ 0 ∧ s.reg.next ≠ g.next
        omega

theorem inv_unload {lo : Nat} {given : List Nat} {s : OptSt} (h : OptInv lo given s) : OptInv lo given (optUnload s) := by
  unfold optUnload
  by_cases hf : s.flag = true
  · rw [if_pos hf]
    cases ha : s.reg.del optW with
    | none => exact h.drop
    | some g =>
      have hg := del_some ha
      simp only
      cases hb : g.del optR with
      | none => exact (h.grow (g := g) (by omega)).drop
      | some g' =>
        have hg' := del_some hb
        have h' := (h.grow (g := g') (by omega)).drop
        exact ⟨h'.next, h'.lt, h'.w, h'.r, fun hx => by simp at hx, fun hx => by simp at hx⟩
  · rw [if_neg hf]
    exact h.drop

theorem inv_step {lo : Nat} (hlo : 0 < lo) {given : List Nat} {s : OptSt} (h : OptInv lo given s) (e : OptEv) (es : List OptEv) :
    ∃ now, optGiven s (e :: es) = now ++ optGiven (optStep s e) es ∧ OptInv lo (given ++ now) (optStep s e) := by
  refine ⟨_, rfl, ?_⟩
  cases e with
  | load => simpa [optStep] using inv_load hlo h
  | unload => simpa [optStep] using inv_unload h
  | otherDel name =>
    simp only [optStep, List.append_nil]
    cases ha : s.reg.del name with
    | none => exact h
    | some g => exact h.grow (Nat.le_of_eq (del_some ha).symm)
  | other name =>
    simp only [optStep]
    cases ha : s.reg.add name with
    | none => simpa using h
    | some p =>
      obtain ⟨n, g⟩ := p
      obtain ⟨rfl, hg⟩ := add_some ha
      have h' := h.grow (g := g) (by omega)
      simp only [Option.map_some, Option.toList_some]
      refine ⟨h'.next, ?_, h.w.imp_right (fun k => ⟨k.1, by simp only; omega, ?_⟩), h.r.imp_right (fun k => ⟨k.1, by simp only; omega, ?_⟩), h'.both, h'.load⟩
      · intro m hm
        rcases List.mem_append.mp hm with hm | hm
        · exact h'.lt m hm
        · rw [List.mem_singleton.mp hm]
          simp only
          omega
      · simp only [List.mem_append, List.mem_singleton, not_or]
        exact ⟨k.2.2, by omega⟩
      · simp only [List.mem_append, List.mem_singleton, not_or]
        exact ⟨k.2.2, by omega⟩

theorem inv_run {lo : Nat} (hlo : 0 < lo) : ∀ (es : List OptEv) {given : List Nat} {s : OptSt}, OptInv lo given s →
    OptInv lo (given ++ optGiven s es) (optRun s es)
  | [], given, s, h => by simpa [optGiven, optRun] using h
  | e :: es, given, s, h => by
    obtain ⟨now, h1, h2⟩ := inv_step hlo h e es
    have := inv_run hlo es h2
    rw [h1, ← List.append_assoc]
    exact this

theorem vals_load {s : OptSt} (h : s.wval ≠ 0 ∧ s.rval ≠ 0) (hn : 0 < s.reg.next) : (optLoad s).wval ≠ 0 ∧ (optLoad s).rval ≠ 0 := by
  unfold optLoad
  split
  · exact h
  cases ha : s.reg.add optW with
  | none => exact h
  | some p =>
    obtain ⟨w, g⟩ := p
    obtain ⟨rfl, hg⟩ := add_some ha
    simp only
    cases hb : g.add optR with
    | none => exact ⟨by simp only; omega, h.2⟩
    | some p =>
      obtain ⟨r, g'⟩ := p
      obtain ⟨rfl, hg'⟩ := add_some hb
      simp only
      omega

theorem vals_step {s : OptSt} (h : s.wval ≠ 0 ∧ s.rval ≠ 0) (hn : 0 < s.reg.next) (e : OptEv) : (optStep s e).wval ≠ 0 ∧ (optStep s e).rval ≠ 0 := by
  cases e with
  | load => exact vals_load h hn
  | unload =>
    simp only [optStep, optUnload]
    split
    · cases s.reg.del optW with
      | none => exact h
      | some g =>
        simp only
        cases g.del optR <;> exact h
    · exact h
  | other name => simp only [optStep]; split <;> exact h
  | otherDel name => simp only [optStep]; split <;> exact h

theorem vals_run {lo : Nat} (hlo : 0 < lo) : ∀ (es : List OptEv) {given : List Nat} {s : OptSt}, OptInv lo given s → s.wval ≠ 0 ∧ s.rval ≠ 0 →
    (optRun s es).wval ≠ 0 ∧ (optRun s es).rval ≠ 0
  | [], _, _, _, hv => hv
  | e :: es, given, s, h, hv => by
    obtain ⟨now, _, h2⟩ := inv_step hlo h e es
    exact vals_run hlo es h2 (vals_step hv (Nat.lt_of_lt_of_le hlo h.next) e)

theorem inv_start {g : OptReg} : OptInv g.next [] (OptSt.start g) :=
  ⟨Nat.le_refl _, by simp, .inl rfl, .inl rfl, fun h => by simp [OptSt.start] at h, fun h => by simp [OptSt.start] at h⟩

/-! ### Names -/

theorem any_add {g g' : OptReg} {name : String} {n : Nat} (h : g.add name = some (n, g')) (m : String) :
    g'.ops.any (fun o => o.1 == m) = (name == m || g.ops.any (fun o => o.1 == m)) := by
  unfold OptReg.add at h
  split at h
  · simp at h
  · simp only [Option.some.injEq, Prod.mk.injEq] at h
    obtain ⟨_, rfl⟩ := h
    simp

theorem any_del {g g' : OptReg} {name : String} (h : g.del name = some g') (m : String) :
    g'.ops.any (fun o => o.1 == m) = (g.ops.any (fun o => o.1 == m) && m != name) := by
  unfold OptReg.del at h
  split at h
  · simp only [Option.some.injEq] at h
    obtain rfl := h
    simp only
    rw [Bool.eq_iff_iff]
    simp only [List.any_eq_true, List.mem_filter, Bool.and_eq_true, bne_iff_ne, beq_iff_eq]
    constructor
    · rintro ⟨o, ⟨h1, h2⟩, rfl⟩
      exact ⟨⟨o, h1, rfl⟩, h2⟩
    · rintro ⟨⟨o, h1, rfl⟩, h2⟩
      exact ⟨o, ⟨h1, h2⟩, rfl⟩
  · simp at h

theorem add_free {g : OptReg} {name : String} (h : g.ops.any (fun o => o.1 == name) = false) : ∃ n g', g.add name = some (n, g') := by
  unfold OptReg.add
  rw [h]
  exact ⟨_, _, rfl⟩

theorem del_there {g : OptReg} {name : String} (h : g.ops.any (fun o => o.1 == name) = true) : ∃ g', g.del name = some g' := by
  unfold OptReg.del
  rw [h]
  exact ⟨_, rfl⟩

/-- The two names are registered exactly while the flag is set. -/
def _root_.Verif.OptSt.Named (s : OptSt) : Prop :=
  s.reg.ops.any (fun o => o.1 == optW) = s.flag ∧ s.reg.ops.any (fun o => o.1 == optR) = s.flag

/-- Whatever other connectors do with other names. -/
def _root_.Verif.OptEv.Foreign : OptEv → Prop
  | .other name => name ≠ optW ∧ name ≠ optR
  | .otherDel name => name ≠ optW ∧ name ≠ optR
  | _ => True

theorem named_load {s : OptSt} (h : s.Named) : (optLoad s).Named ∧ (optLoad s).loaded = true := by
  unfold optLoad
  by_cases hf : s.flag = true
  · rw [if_pos hf]
    exact ⟨h, rfl⟩
  rw [if_neg hf]
  have hf : s.flag = false := by simpa using hf
  obtain ⟨h1, h2⟩ := h
  rw [hf] at h1 h2
  obtain ⟨w, g, e⟩ := add_free h1
  have e2 : g.ops.any (fun o => o.1 == optR) = false := by
    rw [any_add e, h2]
    decide
  obtain ⟨r, g', e'⟩ := add_free e2
  simp only [e, e']
  refine ⟨⟨?_, ?_⟩, trivial⟩
  · show g'.ops.any _ = true
    rw [any_add e', any_add e]
    simp
  · show g'.ops.any _ = true
    rw [any_add e']
    simp

theorem named_step {s : OptSt} (h : s.Named) (e : OptEv) (he : e.Foreign) : (optStep s e).Named := by
  cases e with
  | load => exact (named_load h).1
  | unload =>
    simp only [optStep, optUnload]
    by_cases hf : s.flag = true
    · rw [if_pos hf]
      obtain ⟨h1, h2⟩ := h
      rw [hf] at h1 h2
      obtain ⟨g, e⟩ := del_there h1
      have e2 : g.ops.any (fun o => o.1 == optR) = true := by
        rw [any_del e, h2]
        decide
      obtain ⟨g', e'⟩ := del_there e2
      simp only [e, e']
      refine ⟨?_, ?_⟩
      · show g'.ops.any _ = false
        rw [any_del e', any_del e]
        simp
      · show g'.ops.any _ = false
        rw [any_del e']
        simp
    · rw [if_neg hf]
      exact h
  | other name =>
    simp only [optStep]
    cases ha : s.reg.add name with
    | none => exact h
    | some p =>
      have h1 := any_add (n := p.1) (g' := p.2) ha optW
      have h2 := any_add (n := p.1) (g' := p.2) ha optR
      have n1 : (name == optW) = false := by simpa using he.1
      have n2 : (name == optR) = false := by simpa using he.2
      rw [n1, Bool.false_or] at h1
      rw [n2, Bool.false_or] at h2
      exact ⟨h1.trans h.1, h2.trans h.2⟩
  | otherDel name =>
    simp only [optStep]
    cases ha : s.reg.del name with
    | none => exact h
    | some g =>
      have n1 : (optW != name) = true := by simpa using he.1.symm
      have n2 : (optR != name) = true := by simpa using he.2.symm
      have h1 := any_del ha optW
      have h2 := any_del ha optR
      rw [n1, Bool.and_true] at h1
      rw [n2, Bool.and_true] at h2
      exact ⟨h1.trans h.1, h2.trans h.2⟩

theorem named_run : ∀ (es : List OptEv) {s : OptSt}, s.Named → (∀ e ∈ es, e.Foreign) → (optRun s es).Named
  | [], _, h, _ => h
  | e :: es, _, h, he => named_run es (named_step h e (he e (by simp))) (fun e' he' => he e' (by simp [he']))

/-- **C82, loading.** The connector can be loaded at any time, however often it has been loaded and unloaded before, unless another connector
uses the names of its operations. -/
theorem C82_load {g : OptReg} (hg : ∀ o ∈ g.ops, o.1 ≠ optW ∧ o.1 ≠ optR) (es : List OptEv) (he : ∀ e ∈ es, e.Foreign) :
    (optRun (OptSt.start g) (es ++ [.load])).loaded = true := by
  have h0 : (OptSt.start g).Named := by
    constructor <;> simp only [OptSt.start, List.any_eq_false, beq_iff_eq] <;> intro o ho
    · exact (hg o ho).1
    · exact (hg o ho).2
  have h := named_run es h0 he
  simp only [optRun, List.foldl_append, List.foldl_cons, List.foldl_nil, optStep]
  exact (named_load h).2

/-! ### The operations -/

variable {σ δ : Type}

/-- **C82, log files.** While the connector is loaded, in whatever way it came to be, H5Dwrite_n and H5Dread_n on a dataset in a log file are the
transfers, whatever the connector below. -/
theorem C82_log {g : OptReg} (hg : optFirst ≤ g.next) (es : List OptEv) (hl : (optRun (OptSt.start g) es).loaded = true) (x : OptXfer σ)
    (below : OptConn δ) (t : σ) (a : δ) :
    h5dwriteN (optRun (OptSt.start g) es) x below (.log t a) = (x.writeN t).map (.log · a) ∧
    h5dreadN (optRun (OptSt.start g) es) x below (.log t a) = (x.readN t).map (.log · a) := by
  have hlo : 0 < g.next := Nat.lt_of_lt_of_le (by decide) hg
  have h := inv_run hlo es (inv_start (g := g))
  obtain ⟨_, _, hne⟩ := h.both (h.load hl)
  refine ⟨by simp [h5dwriteN, datasetOptional], ?_⟩
  simp only [h5dreadN, datasetOptional]
  rw [if_neg (fun h => hne h.symm)]
  simp

/-- **C82, partial: once the connector has been loaded.** On datasets of another connector and in ordinary files the calls fail and change nothing, also after the
connector has been unloaded, however often it has been loaded. The other connector refuses numbers of operations that it has not registered. -/
theorem C82_other_partial {g : OptReg} (hg : optFirst ≤ g.next) (es : List OptEv) (hl : OnceLoaded (OptSt.start g) es) (x : OptXfer σ)
    (below : OptConn δ) (d : δ) (hb : ∀ n, g.next ≤ n → n ∉ optGiven (OptSt.start g) es → below.op n d = none) :
    h5dwriteN (optRun (OptSt.start g) es) x below (.foreign d) = none ∧ h5dreadN (optRun (OptSt.start g) es) x below (.foreign d) = none ∧
    h5dwriteN (optRun (OptSt.start g) es) x below (.ordinary d) = none ∧ h5dreadN (optRun (OptSt.start g) es) x below (.ordinary d) = none := by
  have hlo : 0 < g.next := Nat.lt_of_lt_of_le (by decide) hg
  have h := inv_run hlo es (inv_start (g := g))
  have hv : (optRun (OptSt.start g) es).wval ≠ 0 ∧ (optRun (OptSt.start g) es).rval ≠ 0 := by
    obtain ⟨es1, es2, rfl, h1⟩ := hl
    have k := inv_run hlo es1 (inv_start (g := g))
    obtain ⟨k1, k2, _⟩ := k.both (k.load h1)
    have := vals_run hlo es2 k ⟨k1, k2⟩
    simpa [optRun] using this
  rw [List.nil_append] at h
  obtain ⟨w1, _, w2⟩ := h.w.resolve_left hv.1
  obtain ⟨r1, _, r2⟩ := h.r.resolve_left hv.2
  simp [h5dwriteN, h5dreadN, datasetOptional, hb _ w1 w2, hb _ r1 r2]

/-- A dataset of the native connector: the version of its index, and its data. The only operation that matters here is the conversion of
the index; numbers that are not its own are refused. -/
def optNative : OptConn (Nat × List Byte) :=
  ⟨fun n d => if n = optConvert then some (1, d.2) else none, fun n => if n = optConvert then some 1 else some 0⟩

/-- **C82, violated before the connector is loaded.** The numbers are 0 until then, and 0 is an operation of the native connector: on its
datasets H5Dwrite_n and H5Dread_n succeed, write and read nothing, and convert the dataset to another format. -/
theorem C82_unloaded_violated (g : OptReg) (es : List OptEv) (hes : ∀ e ∈ es, e ≠ OptEv.load) (x : OptXfer σ) (v : Nat) (data : List Byte) :
    h5dwriteN (optRun (OptSt.start g) es) x optNative (.foreign (v, data)) = some (.foreign (1, data)) ∧
    h5dreadN (optRun (OptSt.start g) es) x optNative (.foreign (v, data)) = some (.foreign (1, data)) := by
  have key : ∀ (es : List OptEv) (s : OptSt), (∀ e ∈ es, e ≠ OptEv.load) → s.wval = 0 ∧ s.rval = 0 →
      (optRun s es).wval = 0 ∧ (optRun s es).rval = 0 := by
    intro es
    induction es with
    | nil => exact fun s _ h => h
    | cons e es ih =>
      intro s hes h
      refine ih (optStep s e) (fun e' he' => hes e' (by simp [he'])) ?_
      cases e with
      | load => exact absurd rfl (hes _ (by simp))
      | unload =>
        simp only [optStep, optUnload]
        split
        · cases s.reg.del optW with
          | none => exact h
          | some g =>
            simp only
            cases g.del optR <;> exact h
        · exact h
      | other name => simp only [optStep]; split <;> exact h
      | otherDel name => simp only [optStep]; split <;> exact h
  obtain ⟨h1, h2⟩ := key es (OptSt.start g) hes ⟨rfl, rfl⟩
  simp [h5dwriteN, h5dreadN, datasetOptional, h1, h2, optNative, optConvert]

/-- **C82, other operations.** Operations of the native connector (but for number 0 before the connector is loaded), and those that other
connectors have registered, are passed on to the connector below, for datasets in ordinary files and in log files; what is in the log
stays as it is. -/
theorem C82_passed {g : OptReg} (hg : optFirst ≤ g.next) (es : List OptEv) (x : OptXfer σ) (below : OptConn δ) (n : Nat)
    (hn : n ∈ optGiven (OptSt.start g) es ∨ n < g.next) (hl : n = 0 → OnceLoaded (OptSt.start g) es) :
    (∀ d, datasetOptional (optRun (OptSt.start g) es) x below n (.ordinary d) = (below.op n d).map .ordinary) ∧
    (∀ t a, datasetOptional (optRun (OptSt.start g) es) x below n (.log t a) = (below.op n a).map (.log t)) := by
  have hlo : 0 < g.next := Nat.lt_of_lt_of_le (by decide) hg
  have h := inv_run hlo es (inv_start (g := g))
  have key : n ≠ (optRun (OptSt.start g) es).wval ∧ n ≠ (optRun (OptSt.start g) es).rval := by
    by_cases h0 : n = 0
    · have hv : (optRun (OptSt.start g) es).wval ≠ 0 ∧ (optRun (OptSt.start g) es).rval ≠ 0 := by
        obtain ⟨es1, es2, rfl, h1⟩ := hl h0
        have k := inv_run hlo es1 (inv_start (g := g))
        obtain ⟨k1, k2, _⟩ := k.both (k.load h1)
        have := vals_run hlo es2 k ⟨k1, k2⟩
        simpa [optRun] using this
      omega
    · have hw := h.w
      have hr := h.r
      rw [List.nil_append] at hw hr
      constructor
      · rintro e
        rcases hw with hw | ⟨h1, _, h3⟩
        · exact h0 (e.trans hw)
        · rw [← e] at h1 h3
          exact hn.elim h3 (fun k => by omega)
      · rintro e
        rcases hr with hw | ⟨h1, _, h3⟩
        · exact h0 (e.trans hw)
        · rw [← e] at h1 h3
          exact hn.elim h3 (fun k => by omega)
  exact ⟨fun d => rfl, fun t a => by simp [datasetOptional, key.1, key.2]⟩

/-- **C82, violated: queries.** The connector does not answer for its own operations: over a connector that answers for what it does itself,
H5Dwrite_n and H5Dread_n are reported as not supported (bit 0 of the answer is not set) on every dataset of a log file, on which they work. -/
theorem C82_query_violated {g : OptReg} (hg : optFirst ≤ g.next) (es : List OptEv) (hl : (optRun (OptSt.start g) es).loaded = true)
    (below : OptConn δ) (hq : ∀ n f, below.query n = some f → f % 2 = 1 → ∃ d d', below.op n d = some d')
    (hb : ∀ n, g.next ≤ n → n ∉ optGiven (OptSt.start g) es → ∀ d, below.op n d = none) (t : σ) (a : δ) :
    (∀ f, optQuery below (optRun (OptSt.start g) es).wval (.log t a : OptObj σ δ) = some f → f % 2 = 0) ∧
    (∀ f, optQuery below (optRun (OptSt.start g) es).rval (.log t a : OptObj σ δ) = some f → f % 2 = 0) ∧
    ∀ (x : OptXfer σ) (t' : σ), x.writeN t = some t' → h5dwriteN (optRun (OptSt.start g) es) x below (.log t a) = some (.log t' a) := by
  have hlo : 0 < g.next := Nat.lt_of_lt_of_le (by decide) hg
  have h := inv_run hlo es (inv_start (g := g))
  obtain ⟨v1, v2, _⟩ := h.both (h.load hl)
  rw [List.nil_append] at h
  obtain ⟨w1, _, w2⟩ := h.w.resolve_left v1
  obtain ⟨r1, _, r2⟩ := h.r.resolve_left v2
  have no : ∀ n, g.next ≤ n → n ∉ optGiven (OptSt.start g) es → ∀ f, below.query n = some f → f % 2 = 0 := by
    intro n h1 h2 f hc
    rcases Nat.mod_two_eq_zero_or_one f with h0 | h0
    · exact h0
    · obtain ⟨d, d', hd⟩ := hq n f hc h0
      rw [hb n h1 h2 d] at hd
      simp at hd
  refine ⟨no _ w1 w2, no _ r1 r2, fun x t' hx => ?_⟩
  rw [(C82_log hg es hl x below t a).1, hx]
  rfl

/-- **C82, classes.** The class of the current connector is this one; the terminal class is that of the connector at the end, however many others are between. -/
theorem C82_class (below : List VolLayer) (c : Nat) (rest : List VolLayer) (hb : ∀ l ∈ below, ∀ c, l ≠ .terminal c) :
    connCls .curr (.log :: below) = .ok .log ∧ connCls .term (.log :: below ++ .terminal c :: rest) = .ok (.other c) := by
  refine ⟨rfl, ?_⟩
  have key : ∀ ls : List VolLayer, (∀ l ∈ ls, ∀ c, l ≠ .terminal c) → connCls .term (ls ++ .terminal c :: rest) = .ok (.other c) := by
    intro ls
    induction ls with
    | nil => intro _; rfl
    | cons l ls ih =>
      intro h
      have := ih (fun l' hl' => h l' (by simp [hl']))
      cases l with
      | log => simpa [connCls] using this
      | pass c => simpa [connCls] using this
      | terminal c' => exact absurd rfl (h (.terminal c') (by simp) c')
  exact key (.log :: below) (by
    intro l hl c
    rcases List.mem_cons.mp hl with rfl | hl
    · simp
    · exact hb l hl c)

/-- **C82, violated: capabilities.** With a connector information the flags are those of the connector below; but after H5Pset_vol with NULL, as in the
documentation and in all examples, the query is undefined. -/
theorem C82_caps_violated (caps : Nat → VolInfo → Option Nat) :
    (∀ c i f, capFlags caps (.under c i) = .ok f ↔ caps c i = some f) ∧ (∀ c i, capFlags caps (.under c i) ≠ .ub) ∧
      capFlags caps .null = .ub := by
  refine ⟨fun c i f => ?_, fun c i => ?_, rfl⟩
  · cases h : caps c i <;> simp [capFlags, h]
  · cases h : caps c i <;> simp [capFlags, h]

/-! ### Cases that meet the hypotheses -/

/-- Another connector registers an operation, then this one is loaded, unloaded and loaded again. -/
def opxEvs : List OptEv := [.other "cache", .load, .unload, .load]

def opxReg : OptReg := ⟨1030, [("async", 1024)]⟩

example : optFirst ≤ opxReg.next ∧ (optRun (OptSt.start opxReg) opxEvs).loaded = true ∧ OnceLoaded (OptSt.start opxReg) opxEvs ∧
    optGiven (OptSt.start opxReg) opxEvs = [1030] ∧ (optRun (OptSt.start opxReg) opxEvs).wval = 1033 ∧
    (optRun (OptSt.start opxReg) opxEvs).rval = 1034 ∧
    (∀ n, opxReg.next ≤ n → n ∉ optGiven (OptSt.start opxReg) opxEvs → ∀ d, optNative.op n d = none) ∧
    (∀ n f, optNative.query n = some f → f % 2 = 1 → ∃ d d', optNative.op n d = some d') := by
  refine ⟨by decide, by decide +kernel, ⟨opxEvs, [], rfl, by decide +kernel⟩, by decide +kernel, by decide +kernel, by decide +kernel, ?_, ?_⟩
  · intro n hn _ d
    have : n ≠ optConvert := by
      simp only [opxReg, optConvert] at hn ⊢
      omega
    simp [optNative, this]
  · intro n f hn hf
    by_cases h : n = optConvert
    · exact ⟨(0, []), (1, []), by simp [optNative, h]⟩
    · simp [optNative, h] at hn
      omega

/-- The hypotheses of `C82_load`. -/
example : (∀ o ∈ opxReg.ops, o.1 ≠ optW ∧ o.1 ≠ optR) ∧ ∀ e ∈ opxEvs ++ [.unload], e.Foreign := by
  refine ⟨by decide, ?_⟩
  simp [opxEvs, OptEv.Foreign]
  decide

/-- Unloaded again, the calls still fail on a dataset of the native connector; before the first load they do not. -/
example (x : OptXfer σ) : h5dwriteN (optRun (OptSt.start opxReg) (opxEvs ++ [.unload])) x optNative (.foreign (2, [7])) = none ∧
    h5dwriteN (optRun (OptSt.start opxReg) [.other "cache"]) x optNative (.foreign (2, [7])) = some (.foreign (1, [7])) := by
  have h1 : (optRun (OptSt.start opxReg) (opxEvs ++ [.unload])).wval = 1033 := by decide +kernel
  refine ⟨by simp [h5dwriteN, datasetOptional, h1, optNative, optConvert], ?_⟩
  exact (C82_unloaded_violated opxReg _ (by simp) x 2 [7]).1

/-- The operation of the other connector, and the one of the native connector, on a dataset in a log file. -/
example (x : OptXfer σ) (t : σ) :
    datasetOptional (optRun (OptSt.start opxReg) opxEvs) x optNative 1030 (.log t (2, [7])) = none ∧
    datasetOptional (optRun (OptSt.start opxReg) opxEvs) x optNative 0 (.log t (2, [7])) = some (.log t (1, [7])) := by
  have hl : OnceLoaded (OptSt.start opxReg) opxEvs := ⟨opxEvs, [], rfl, by decide +kernel⟩
  rw [(C82_passed (by decide) opxEvs x optNative 1030 (.inl (by decide +kernel)) (fun _ => hl)).2,
    (C82_passed (by decide) opxEvs x optNative 0 (.inr (by decide)) (fun _ => hl)).2]
  exact ⟨rfl, rfl⟩

example : connCls .term [.log, .pass 3, .log, .terminal 5] = .ok (.other 5) := rfl

end Verif.Props
