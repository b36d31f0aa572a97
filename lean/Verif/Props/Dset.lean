import Verif.Lemmas.Dset
import Verif.Lemmas.Disk
import Verif.Lemmas.Pairs
import Verif.Props.Filter

/-
C78: what a dataset says about itself.
-/

namespace Verif.Props

open Verif.Dset (DCpl Space DType Op Out Layout Fill)

/-- For any sequence of allowed calls, over any number of sessions, the connector gives the documented answers.  Excluded are
the calls of the theorems below. -/
theorem C78_answers_partial (enc plain fresh : Bool) (ps : List DCpl) (ops : List Op)
    (hp : plain = true → ∀ p ∈ ps, Spec.Dset.Plain p)
    (ha : Spec.Dset.AllowedRun enc plain fresh (Spec.Dset.St.new ps) ops) :
    ∃ m, (Dset.St.new ps).run enc ops = .ok (m, ((Spec.Dset.St.new ps).run ops).2) := by
  obtain ⟨m, hm, _⟩ := Dset.Rel.run ops (Dset.Rel.new ps hp) ha
  exact ⟨m, hm⟩

private def exP : DCpl := ⟨.contiguous, [], .value [1, 2, 3, 4]⟩
private def exD : DCpl := ⟨.chunked [2], [.deflate], .default⟩
private def exT : DType := ⟨7, 4, false⟩

/-- Two sessions with an extendible dataset that has a fill value; a session with a filter. -/
example :
    (∃ m, (Dset.St.new [exP]).run true [.create ['a'] exT (.simple [2] [none]) 0, .create ['a'] exT (.simple [9] [none]) 0,
        .getLayout 0, .setExtent 0 [5], .reopen, .getSpace 0, .open ['a'], .getSpace 1, .getFill 1, .getType 1, .getCreate 1]
      = .ok (m, [.handle 0, .failed, .layout .contiguous, .done, .done, .failed, .handle 1, .space (.simple [5] [none]),
          .fill (some [1, 2, 3, 4]), .type exT, .dcpl exP])) ∧
    (∃ m, (Dset.St.new [exD]).run true [.create ['a'] exT (.simple [2] [none]) 0, .open ['a'], .getFilters 1]
      = .ok (m, [.handle 0, .handle 1, .filters [.deflate]])) := by
  refine ⟨C78_answers_partial true true false [exP] _ ?_ ?_, C78_answers_partial true false true [exD] _ ?_ ?_⟩
  · intro _ p hp
    simp only [List.mem_singleton] at hp
    subst hp
    exact ⟨rfl, rfl⟩
  · refine ⟨⟨rfl, ?_, rfl⟩, ⟨rfl, ?_, rfl⟩, rfl, ?_, rfl, trivial, trivial, trivial, trivial, trivial, rfl, trivial⟩
    · simp
    · simp
    · intro d hd
      cases hd
      exact ⟨.simple [5] [none], by decide⟩
  · intro h; cases h
  · exact ⟨⟨rfl, by simp, rfl⟩, trivial, .inr rfl, trivial⟩

/-- `H5Dcreate` changes the property list of the application: after any call with a list of another layout, `H5Pget_layout`
says contiguous, even if the call has failed because the name is taken. -/
theorem C78_layout_violated (enc : Bool) (m m' : Dset.St) (n : Name) (t : DType) (sp : Space) (k : Nat) (p : DCpl) (o : Out)
    (hk : m.plists[k]? = some p) (hp : p.layout ≠ .contiguous) (ht : t.varStr = false)
    (h : m.step enc (.create n t sp k) = .ok (m', o)) :
    m.step enc (.getLayout k) = .ok (m, .layout p.layout) ∧ m'.step enc (.getLayout k) = .ok (m', .layout .contiguous) ∧
    p.layout ≠ .contiguous := by
  have hlt : k < m.plists.length := by
    rw [List.getElem?_eq_some_iff] at hk
    exact hk.1
  refine ⟨by simp [Dset.St.step, hk], ?_, hp⟩
  simp only [Dset.St.step, Dset.St.create, ht, hk] at h
  have : m'.plists = m.plists.set k { p with layout := .contiguous } := by
    simp only [Bool.false_eq_true, if_false] at h
    split at h
    · cases h; rfl
    · split at h
      · cases h
      · cases h; rfl
  simp [Dset.St.step, this, hlt]

private def exM (l : Layout) : Dset.St :=
  ⟨[exP, ⟨l, [.deflate], .default⟩], [⟨['a'], exT, exP, [2], [none]⟩], [some ⟨exT, [2], [none], [], some [1, 2, 3, 4]⟩], [some ⟨0, exP⟩]⟩

example :
    (Dset.St.new [exP, exD]).run true [.create ['a'] exT (.simple [2] [none]) 0] = .ok (exM (.chunked [2]), [.handle 0]) ∧
    (exM (.chunked [2])).step true (.getLayout 1) = .ok (exM (.chunked [2]), .layout (.chunked [2])) ∧
    (exM (.chunked [2])).step true (.create ['a'] exT (.simple [2] [none]) 1) = .ok (exM .contiguous, .failed) ∧
    (exM .contiguous).step true (.getLayout 1) = .ok (exM .contiguous, .layout .contiguous) := by
  have h : (exM (.chunked [2])).step true (.create ['a'] exT (.simple [2] [none]) 1) = .ok (exM .contiguous, .failed) := rfl
  have := C78_layout_violated true _ _ ['a'] exT (.simple [2] [none]) 1 exD .failed rfl (by decide) rfl h
  exact ⟨rfl, this.1, h, this.2.1⟩

/-- A call followed by others. -/
theorem Dset.run_cons {enc : Bool} {m m' m'' : Verif.Dset.St} {op : Op} {ops : List Op} {o : Out} {os : List Out}
    (h : m.step enc op = .ok (m', o)) (h' : m'.run enc ops = .ok (m'', os)) : m.run enc (op :: ops) = .ok (m'', o :: os) := by
  unfold Verif.Dset.St.run
  rw [h]
  show (m'.run enc ops).bind _ = _
  rw [h']
  rfl

/-- A file with one dataset. -/
def Dset.one (p q : DCpl) (n : Name) (t : DType) (sp : Space) (fs : List FilterId) : Verif.Dset.St :=
  ⟨[p], [⟨n, t, { q with filters := [] }, sp.extent.1, sp.extent.2⟩],
    [some ⟨t, sp.extent.1, sp.extent.2, fs, q.fillBytes t.size⟩], [some ⟨0, q⟩]⟩

theorem Dset.create_one (enc : Bool) (n : Name) (t : DType) (sp : Space) (p : DCpl) (ht : t.varStr = false)
    (hd : enc = true → sp.extent.1 ≠ []) :
    (Verif.Dset.St.new [p]).step enc (.create n t sp 0) =
      .ok (Dset.one { p with layout := .contiguous } { p with layout := .contiguous } n t sp p.filters, .handle 0) := by
  simp only [Verif.Dset.St.step, Verif.Dset.St.create, ht, Verif.Dset.St.new, List.getElem?_cons_zero, List.any_nil,
    Bool.false_eq_true, if_false]
  rw [if_neg (fun h => hd h.1 h.2)]
  rfl

/-- Such a file reopened. -/
theorem Dset.reopen_one (enc : Bool) (p q : DCpl) (n : Name) (t : DType) (sp : Space) (fs : List FilterId)
    (hd : enc = true → sp.extent.1 ≠ []) :
    ∃ m, (Dset.one p q n t sp fs).run enc [.reopen, .open n, .getFilters 1] = .ok (m, [.done, .handle 1, .filters []]) := by
  have hb : ∀ q' : DCpl, Verif.Dset.buildInfo enc ⟨n, t, { q with filters := [] }, sp.extent.1, sp.extent.2⟩ q' =
      .ok ⟨t, sp.extent.1, sp.extent.2, q'.filters, q'.fillBytes t.size⟩ := by
    intro q'
    unfold Verif.Dset.buildInfo
    rw [if_neg (fun h => hd h.1 h.2)]
  by_cases hn : n.head? = some '.'
  · have h1 : (Dset.one p q n t sp fs).step enc .reopen =
        .ok (⟨[p], [⟨n, t, { q with filters := [] }, sp.extent.1, sp.extent.2⟩], [none], [none]⟩, .done) := by
      simp only [Verif.Dset.St.step, Dset.one, Verif.Dset.visit, hn, if_true]
      rfl
    have h2 : Verif.Dset.St.step enc ⟨[p], [⟨n, t, { q with filters := [] }, sp.extent.1, sp.extent.2⟩], [none], [none]⟩ (.open n) =
        .ok (⟨[p], [⟨n, t, { q with filters := [] }, sp.extent.1, sp.extent.2⟩],
          [some ⟨t, sp.extent.1, sp.extent.2, [], q.fillBytes t.size⟩], [none, some ⟨0, { q with filters := [] }⟩]⟩, .handle 1) := by
      simp only [Verif.Dset.St.step, Verif.Dset.St.open, List.findIdx?_cons, beq_self_eq_true, if_true, List.getElem?_cons_zero, hb]
      rfl
    exact ⟨_, Dset.run_cons h1 (Dset.run_cons h2 rfl)⟩
  · have h1 : (Dset.one p q n t sp fs).step enc .reopen =
        .ok (⟨[p], [⟨n, t, { q with filters := [] }, sp.extent.1, sp.extent.2⟩],
          [some ⟨t, sp.extent.1, sp.extent.2, [], q.fillBytes t.size⟩], [none]⟩, .done) := by
      simp only [Verif.Dset.St.step, Dset.one, Verif.Dset.visit, hn, if_false, hb]
      rfl
    have h2 : Verif.Dset.St.step enc ⟨[p], [⟨n, t, { q with filters := [] }, sp.extent.1, sp.extent.2⟩],
          [some ⟨t, sp.extent.1, sp.extent.2, [], q.fillBytes t.size⟩], [none]⟩ (.open n) =
        .ok (⟨[p], [⟨n, t, { q with filters := [] }, sp.extent.1, sp.extent.2⟩],
          [some ⟨t, sp.extent.1, sp.extent.2, [], q.fillBytes t.size⟩], [none, some ⟨0, { q with filters := [] }⟩]⟩, .handle 1) := by
      simp only [Verif.Dset.St.step, Verif.Dset.St.open, List.findIdx?_cons, beq_self_eq_true, if_true, List.getElem?_cons_zero]
      rfl
    exact ⟨_, Dset.run_cons h1 (Dset.run_cons h2 rfl)⟩

/-- What `H5Dget_create_plist` returns is contiguous, whatever the dataset was created with. -/
theorem C78_plist_violated (enc : Bool) (n : Name) (t : DType) (d : List Nat) (mx : List (Option Nat)) (p : DCpl)
    (ht : t.varStr = false) (hd : d ≠ []) (hp : p.layout ≠ .contiguous) :
    ((Spec.Dset.St.new [p]).run [.create n t (.simple d mx) 0, .getCreate 0]).2 = [.handle 0, .dcpl p] ∧
    (∃ m, (Dset.St.new [p]).run enc [.create n t (.simple d mx) 0, .getCreate 0] =
      .ok (m, [.handle 0, .dcpl { p with layout := .contiguous }])) ∧
    p ≠ { p with layout := .contiguous } := by
  refine ⟨rfl, ⟨_, Dset.run_cons (Dset.create_one enc n t _ p ht (fun _ => hd)) rfl⟩, ?_⟩
  intro h
  exact hp (by rw [h])

example : ∃ m, (Dset.St.new [exD]).run false [.create ['a'] exT (.simple [2] [none]) 0, .getCreate 0] =
    .ok (m, [.handle 0, .dcpl ⟨.contiguous, [.deflate], .default⟩]) :=
  (C78_plist_violated false ['a'] exT [2] [none] exD rfl (by decide) (by decide)).2.1

/-- After reopening, a dataset that was created with filters has none. -/
theorem C78_filters_violated (enc : Bool) (n : Name) (t : DType) (d : List Nat) (mx : List (Option Nat)) (p : DCpl)
    (ht : t.varStr = false) (hd : d ≠ []) (hp : p.filters ≠ []) :
    ((Spec.Dset.St.new [p]).run [.create n t (.simple d mx) 0, .getFilters 0, .reopen, .open n, .getFilters 1]).2 =
      [.handle 0, .filters p.filters, .done, .handle 1, .filters p.filters] ∧
    (∃ m, (Dset.St.new [p]).run enc [.create n t (.simple d mx) 0, .getFilters 0, .reopen, .open n, .getFilters 1] =
      .ok (m, [.handle 0, .filters p.filters, .done, .handle 1, .filters []])) ∧
    p.filters ≠ [] := by
  refine ⟨?_, ?_, hp⟩
  · simp [Spec.Dset.St.run, Spec.Dset.St.step, Spec.Dset.St.new, Spec.Dset.St.ask, Spec.Dset.St.decl, List.findIdx?_cons]
  · obtain ⟨m, hm⟩ := Dset.reopen_one enc { p with layout := .contiguous } { p with layout := .contiguous } n t (.simple d mx) p.filters
      (fun _ => hd)
    exact ⟨m, Dset.run_cons (Dset.create_one enc n t _ p ht (fun _ => hd)) (Dset.run_cons rfl hm)⟩

example : ∃ m, (Dset.St.new [exD]).run true [.create ['a'] exT (.simple [2] [none]) 0, .getFilters 0, .reopen, .open ['a'],
    .getFilters 1] = .ok (m, [.handle 0, .filters [.deflate], .done, .handle 1, .filters []]) :=
  (C78_filters_violated true ['a'] exT [2] [none] exD rfl (by decide) (by decide)).2.1

/-- No dataset in the file has filters. -/
def Dset.NoF (m : Verif.Dset.St) : Prop := ∀ a ∈ m.anchors, a.dcpl.filters = []

/-- Nor does any open one. -/
def Dset.Quiet (m : Verif.Dset.St) : Prop :=
  Dset.NoF m ∧ (∀ i, some i ∈ m.infos → i.filters = []) ∧ ∀ x, some x ∈ m.handles → x.dcpl.filters = []

theorem Dset.visit_quiet (enc : Bool) : ∀ (as : List Verif.Dset.Anchor) (is : List (Option Verif.Dset.Info)),
    (∀ a ∈ as, a.dcpl.filters = []) → Verif.Dset.visit enc as = .ok is → ∀ i, some i ∈ is → i.filters = []
  | [], is, _, h, i, hi => by cases h; simp at hi
  | a :: as, is, ha, h, i, hi => by
    unfold Verif.Dset.visit at h
    dsimp only at h
    have key : ∀ x : Option Verif.Dset.Info, (∀ i, x = some i → i.filters = []) →
        ((Verif.Dset.visit enc as >>= fun is => pure (x :: is)) = .ok is) → i.filters = [] := by
      intro x hx h
      obtain ⟨y, hy, h⟩ := Res.bind_ok h
      cases h
      rcases List.mem_cons.mp hi with hi | hi
      · exact hx i hi.symm
      · exact Dset.visit_quiet enc as y (fun b hb => ha b (by simp [hb])) hy i hi
    split at h
    · exact key none (fun i hi => by cases hi) h
    · obtain ⟨x, hx, h⟩ := Res.bind_ok h
      refine key x ?_ h
      rintro i rfl
      unfold Verif.Dset.buildInfo at hx
      split at hx
      · cases hx
      · cases hx
        exact ha a (by simp)

theorem Dset.ask_same {m m' : Verif.Dset.St} {h : Nat} {f : Verif.Dset.Handle → Verif.Dset.Info → Out} {o : Out}
    (hs : m.ask h f = .ok (m', o)) : m' = m := by
  unfold Verif.Dset.St.ask at hs
  split at hs
  · cases hs; rfl
  · split at hs
    · cases hs
    · cases hs; rfl

theorem Dset.ask_filters {m m' : Verif.Dset.St} {h : Nat} {f : Verif.Dset.Handle → Verif.Dset.Info → Out} {o : Out}
    (hq : Dset.Quiet m) (hs : m.ask h f = .ok (m', o))
    (hf : ∀ x i, i.filters = [] → ∀ fs, f x i = .filters fs → fs = []) : ∀ fs, o = .filters fs → fs = [] := by
  unfold Verif.Dset.St.ask at hs
  split at hs
  · cases hs; intro fs hf; cases hf
  · rename_i x _
    split at hs
    · cases hs
    · rename_i i hi
      cases hs
      exact hf x i (hq.2.1 i (List.mem_of_getElem? (Option.join_eq_some_iff.mp hi)))

theorem Dset.noF_step {enc : Bool} {m m' : Verif.Dset.St} {op : Op} {o : Out} (h : Dset.NoF m) (hs : m.step enc op = .ok (m', o)) :
    Dset.NoF m' := by
  cases op with
  | create n t sp k =>
    simp only [Verif.Dset.St.step, Verif.Dset.St.create] at hs
    split at hs
    · cases hs; exact h
    split at hs
    · cases hs; exact h
    split at hs
    · cases hs; exact h
    split at hs
    · cases hs
    cases hs
    intro a ha
    rcases List.mem_append.mp ha with ha | ha
    · exact h a ha
    · simp only [List.mem_singleton] at ha
      subst ha
      rfl
  | «open» n =>
    simp only [Verif.Dset.St.step, Verif.Dset.St.open] at hs
    split at hs
    · cases hs; exact h
    split at hs
    · cases hs; exact h
    · obtain ⟨i, _, hs⟩ := Res.bind_ok hs
      cases hs; exact h
    · cases hs
  | close k =>
    simp only [Verif.Dset.St.step] at hs
    split at hs <;> (cases hs; exact h)
  | setExtent k new =>
    simp only [Verif.Dset.St.step, Verif.Dset.St.setExtent] at hs
    split at hs
    · cases hs; exact h
    split at hs
    · cases hs
    split at hs
    · cases hs
    split at hs
    · cases hs; exact h
    split at hs
    · cases hs
    cases hs
    intro a ha
    obtain ⟨j, hj⟩ := List.mem_iff_getElem?.mp ha
    simp only [List.getElem?_modify] at hj
    cases hb : m.anchors[j]? with
    | none => rw [hb] at hj; cases hj
    | some b =>
      rw [hb] at hj
      have := h b (List.mem_of_getElem? hb)
      split at hj <;> (cases hj; exact this)
  | getType k =>
    simp only [Verif.Dset.St.step] at hs
    split at hs <;> (cases hs; exact h)
  | getLayout k => cases hs; exact h
  | reopen =>
    simp only [Verif.Dset.St.step] at hs
    obtain ⟨i, _, hs⟩ := Res.bind_ok hs
    cases hs; exact h
  | getSpace k => rw [Dset.ask_same hs]; exact h
  | getCreate k => rw [Dset.ask_same hs]; exact h
  | getStorage k => rw [Dset.ask_same hs]; exact h
  | getStatus k => rw [Dset.ask_same hs]; exact h
  | getFill k => rw [Dset.ask_same hs]; exact h
  | getFilters k => rw [Dset.ask_same hs]; exact h

theorem Dset.reopen_quiet {enc : Bool} {m m' : Verif.Dset.St} {o : Out} (h : Dset.NoF m) (hs : m.step enc .reopen = .ok (m', o)) :
    Dset.Quiet m' := by
  simp only [Verif.Dset.St.step] at hs
  obtain ⟨is, hv, hs⟩ := Res.bind_ok hs
  cases hs
  refine ⟨h, Dset.visit_quiet enc _ is h hv, ?_⟩
  intro x hx
  simp at hx

theorem Dset.shared_quiet {m : Verif.Dset.St} (h : Dset.Quiet m) {i : Nat} {a : Verif.Dset.Anchor} (ha : m.anchors[i]? = some a) :
    (m.shared i a).filters = [] := by
  unfold Verif.Dset.St.shared
  cases hf : m.handles.find? (fun h => h.any (fun x => x.id == i)) with
  | none => exact h.1 a (List.mem_of_getElem? ha)
  | some x =>
    cases x with
    | none => exact h.1 a (List.mem_of_getElem? ha)
    | some y => exact h.2.2 y (List.mem_of_find?_eq_some hf)

theorem Dset.quiet_step {enc : Bool} {m m' : Verif.Dset.St} {op : Op} {o : Out} (h : Dset.Quiet m)
    (hc : ∀ n t sp k, op ≠ .create n t sp k) (hs : m.step enc op = .ok (m', o)) :
    Dset.Quiet m' ∧ ∀ fs, o = .filters fs → fs = [] := by
  have hN := Dset.noF_step h.1 hs
  cases op with
  | create n t sp k => exact absurd rfl (hc n t sp k)
  | «open» n =>
    simp only [Verif.Dset.St.step, Verif.Dset.St.open] at hs
    split at hs
    · cases hs; exact ⟨h, fun fs hf => by cases hf⟩
    split at hs
    · rename_i a _ ha _
      cases hs
      refine ⟨⟨hN, h.2.1, ?_⟩, fun fs hf => by cases hf⟩
      intro x hx
      rcases List.mem_append.mp hx with hx | hx
      · exact h.2.2 x hx
      · simp only [List.mem_singleton, Option.some.injEq] at hx
        subst hx
        exact Dset.shared_quiet h ha
    · rename_i a ha _
      obtain ⟨i, hb, hs⟩ := Res.bind_ok hs
      have hsh := Dset.shared_quiet h ha
      cases hs
      refine ⟨⟨hN, ?_, ?_⟩, fun fs hf => by cases hf⟩
      · intro j hj
        rcases List.mem_or_eq_of_mem_set hj with hj | hj
        · exact h.2.1 j hj
        · cases hj
          unfold Verif.Dset.buildInfo at hb
          split at hb
          · cases hb
          · cases hb; exact hsh
      · intro x hx
        rcases List.mem_append.mp hx with hx | hx
        · exact h.2.2 x hx
        · simp only [List.mem_singleton, Option.some.injEq] at hx
          subst hx
          exact hsh
    · cases hs
  | close k =>
    simp only [Verif.Dset.St.step] at hs
    split at hs
    · cases hs; exact ⟨h, fun fs hf => by cases hf⟩
    · cases hs
      refine ⟨⟨hN, h.2.1, ?_⟩, fun fs hf => by cases hf⟩
      intro x hx
      rcases List.mem_or_eq_of_mem_set hx with hx | hx
      · exact h.2.2 x hx
      · cases hx
  | setExtent k new =>
    simp only [Verif.Dset.St.step, Verif.Dset.St.setExtent] at hs
    split at hs
    · cases hs; exact ⟨h, fun fs hf => by cases hf⟩
    split at hs
    · cases hs
    rename_i i hi
    have hset : ∀ (k : Nat) (d : List Nat), ∀ j, some j ∈ m.infos.set k (some { i with dims := d }) → j.filters = [] := by
      intro k d j hj
      rcases List.mem_or_eq_of_mem_set hj with hj | hj
      · exact h.2.1 j hj
      · cases hj
        exact h.2.1 i (List.mem_of_getElem? (Option.join_eq_some_iff.mp hi))
    split at hs
    · cases hs
    split at hs
    · cases hs
      exact ⟨⟨hN, hset _ _, h.2.2⟩, fun fs hf => by cases hf⟩
    split at hs
    · cases hs
    cases hs
    exact ⟨⟨hN, hset _ _, h.2.2⟩, fun fs hf => by cases hf⟩
  | getType k =>
    simp only [Verif.Dset.St.step] at hs
    split at hs
    · cases hs; exact ⟨h, fun fs hf => by cases hf⟩
    · rename_i x _
      cases hs
      refine ⟨h, ?_⟩
      intro fs hf
      cases hx : m.anchors[x.id]? with
      | none => rw [hx] at hf; cases hf
      | some a => rw [hx] at hf; cases hf
  | getLayout k =>
    cases hs
    refine ⟨h, ?_⟩
    intro fs hf
    cases hx : m.plists[k]? with
    | none => rw [hx] at hf; cases hf
    | some a => rw [hx] at hf; cases hf
  | reopen =>
    refine ⟨Dset.reopen_quiet h.1 hs, ?_⟩
    simp only [Verif.Dset.St.step] at hs
    obtain ⟨is, hv, hs⟩ := Res.bind_ok hs
    cases hs
    intro fs hf; cases hf
  | getSpace k =>
    exact ⟨by rw [Dset.ask_same hs]; exact h, Dset.ask_filters h hs (fun _ _ _ _ hf => by cases hf)⟩
  | getCreate k =>
    exact ⟨by rw [Dset.ask_same hs]; exact h, Dset.ask_filters h hs (fun _ _ _ _ hf => by cases hf)⟩
  | getStorage k =>
    exact ⟨by rw [Dset.ask_same hs]; exact h, Dset.ask_filters h hs (fun _ _ _ _ hf => by cases hf)⟩
  | getStatus k =>
    exact ⟨by rw [Dset.ask_same hs]; exact h, Dset.ask_filters h hs (fun _ _ _ _ hf => by cases hf)⟩
  | getFill k =>
    exact ⟨by rw [Dset.ask_same hs]; exact h, Dset.ask_filters h hs (fun _ _ _ _ hf => by cases hf)⟩
  | getFilters k =>
    exact ⟨by rw [Dset.ask_same hs]; exact h, Dset.ask_filters h hs (fun _ i hi fs hf => by cases hf; exact hi)⟩

/-- The calls of a list, the state between them and the answers. -/
theorem Dset.run_append {enc : Bool} : ∀ {ops ops' : List Op} {m m' : Verif.Dset.St} {os : List Out},
    m.run enc (ops ++ ops') = .ok (m', os) →
    ∃ m1 os1 os2, m.run enc ops = .ok (m1, os1) ∧ m1.run enc ops' = .ok (m', os2) ∧ os = os1 ++ os2 ∧ os1.length = ops.length
  | [], _, m, m', os, h => ⟨m, [], os, rfl, h, rfl, rfl⟩
  | op :: ops, ops', m, m', os, h => by
    rw [List.cons_append] at h
    unfold Verif.Dset.St.run at h
    obtain ⟨r, hr, h⟩ := Res.bind_ok h
    obtain ⟨q, hq, h⟩ := Res.bind_ok h
    cases h
    obtain ⟨m1, os1, os2, h1, h2, h3, h4⟩ := Dset.run_append hq
    exact ⟨m1, r.2 :: os1, os2, Dset.run_cons hr h1, h2, by rw [h3]; rfl, by simp [h4]⟩

theorem Dset.noF_run {enc : Bool} : ∀ {ops : List Op} {m m' : Verif.Dset.St} {os : List Out}, Dset.NoF m →
    m.run enc ops = .ok (m', os) → Dset.NoF m'
  | [], m, m', os, hN, h => by cases h; exact hN
  | op :: ops, m, m', os, hN, h => by
    unfold Verif.Dset.St.run at h
    obtain ⟨r, hr, h⟩ := Res.bind_ok h
    obtain ⟨q, hq, h⟩ := Res.bind_ok h
    cases h
    exact Dset.noF_run (Dset.noF_step hN hr) hq

theorem Dset.quiet_run {enc : Bool} : ∀ {ops : List Op} {m m' : Verif.Dset.St} {os : List Out}, Dset.Quiet m →
    (∀ n t sp k, Op.create n t sp k ∉ ops) → m.run enc ops = .ok (m', os) → ∀ fs, Out.filters fs ∈ os → fs = []
  | [], m, m', os, _, _, h, fs, hf => by cases h; simp at hf
  | op :: ops, m, m', os, hQ, hc, h, fs, hf => by
    unfold Verif.Dset.St.run at h
    obtain ⟨r, hr, h⟩ := Res.bind_ok h
    obtain ⟨q, hq, h⟩ := Res.bind_ok h
    cases h
    have := Dset.quiet_step hQ (fun n t sp k he => hc n t sp k (by simp [he])) hr
    rcases List.mem_cons.mp hf with hf | hf
    · exact this.2 fs hf.symm
    · exact Dset.quiet_run this.1 (fun n t sp k hm => hc n t sp k (by simp [hm])) hq fs hf

/-- In general: whatever was done before, in a session that creates nothing every dataset is without filters. -/
theorem C78_filters_gone (enc : Bool) (ps : List DCpl) (ops ops' : List Op) (m : Dset.St) (os : List Out)
    (hc : ∀ n t sp k, Op.create n t sp k ∉ ops')
    (h : (Dset.St.new ps).run enc (ops ++ .reopen :: ops') = .ok (m, os)) :
    ∀ fs, Out.filters fs ∈ os.drop ops.length → fs = [] := by
  obtain ⟨m1, os1, os2, h1, h2, h3, h4⟩ := Dset.run_append h
  have hN : Dset.NoF m1 := Dset.noF_run (fun a ha => by simp [Verif.Dset.St.new] at ha) h1
  unfold Verif.Dset.St.run at h2
  obtain ⟨r, hr, h2⟩ := Res.bind_ok h2
  obtain ⟨q, hq, h2⟩ := Res.bind_ok h2
  cases h2
  intro fs hf
  rw [h3, ← h4, List.drop_left] at hf
  have hr' := hr
  simp only [Verif.Dset.St.step] at hr'
  obtain ⟨is, _, hr'⟩ := Res.bind_ok hr'
  cases hr'
  rcases List.mem_cons.mp hf with hf | hf
  · cases hf
  · exact Dset.quiet_run (Dset.reopen_quiet hN hr) hc hq fs hf

example : ∃ m, (Dset.St.new [exD]).run true ([.create ['a'] exT (.simple [2] [none]) 0, .getFilters 0] ++ .reopen ::
    [.open ['a'], .getFilters 1, .close 1, .open ['a'], .getFilters 2]) =
      .ok (m, [.handle 0, .filters [.deflate], .done, .handle 1, .filters [], .done, .handle 2, .filters []]) ∧
    (∀ n t sp k, Op.create n t sp k ∉ [Op.open ['a'], .getFilters 1, .close 1, .open ['a'], .getFilters 2]) := by
  refine ⟨_, rfl, ?_⟩
  intro n t sp k h
  simp at h

/-- A block of one element, read without filters. -/
theorem Dset.read_one (disk mem : Mem) (n e f b : Nat) (he : 0 < e) (xs : Nat) (fs : Int) :
    ∃ m, readHits disk [⟨⟨[n], [some n], e⟩, [1], [0], [1], [0], [1], xs, 0, b, f, fs⟩] mem = .ok m ∧ m b = disk f := by
  obtain ⟨e, rfl⟩ : ∃ k, e = k + 1 := ⟨e - 1, by omega⟩
  have hg : genSegs (groups [⟨⟨[n], [some n], e + 1⟩, [1], [0], [1], [0], [1], xs, 0, b, f, fs⟩]) = .ok ([⟨f, b, e + 1⟩], []) := by
    simp [groups, groupLoop, genSegs, groupSegs, hitElems, DInfo.ndim, subarrayOK, boxIdx, lin, adds, Hit.key, Res.ok_bind]
  have hp : [(⟨f, b, e + 1⟩ : Seg)].flatMap Seg.pairs = (List.range (e + 1)).map (fun i => ((f : Int) + (i : Nat), b + i)) := by
    simp [Seg.pairs]
  have hv : viewOK ((List.range (e + 1)).map (fun i => ((f : Int) + (i : Nat), b + i))) = true := by
    unfold viewOK
    rw [Bool.and_eq_true, decide_eq_true_eq, List.all_eq_true]
    constructor
    · rw [List.map_map, List.pairwise_map]
      refine List.pairwise_lt_range.imp ?_
      intro i j hij
      simp only [Function.comp]
      omega
    · intro p hp
      obtain ⟨i, _, rfl⟩ := List.mem_map.mp hp
      simp only [decide_eq_true_eq]
      omega
  refine ⟨applyPairs disk ((List.range (e + 1)).map (fun i => ((f : Int) + (i : Nat), b + i))) mem, ?_, ?_⟩
  · unfold readHits
    rw [hg]
    simp only [Res.ok_bind, mpiRead, hp, hv, if_true]
    rfl
  · rw [applyPairs_eq]
    have : atAddr b ((List.range (e + 1)).map (fun i => ((f : Int) + (i : Nat), b + i))) = [((f : Int), b)] := by
      unfold atAddr
      rw [List.range_succ_eq_map, List.map_cons, List.filter_cons]
      simp
    rw [this]
    simp

/-- What this does to the data: with any compression whose streams start with the byte `0x78`, an element that does not
start with this byte is stored compressed and, after reopening, read as it is stored. -/
theorem C78_data_violated (enc : Bool) (z : Zlib) (hb : Spec.Bounded z) (hz : ∀ x, (z.comp x).head? = some 0x78)
    (nm : Name) (t : DType) (n : Nat) (p : DCpl) (ht : t.varStr = false) (hp : p.filters ≠ []) (hs : Spec.Supported p.filters)
    (data : List Byte) (hl : data.length = t.size) (ht0 : 0 < t.size) (hd : data.head? ≠ some 0x78) (disk mem : Mem) (f b : Nat) :
    (∃ m, (Dset.St.new [p]).run enc [.create nm t (.simple [n] [some n]) 0, .getFilters 0, .reopen, .open nm, .getFilters 1] =
      .ok (m, [.handle 0, .filters p.filters, .done, .handle 1, .filters []])) ∧
    ∃ stored m, writeFilter z p.filters data = .ok stored ∧
      readHits (writeAt disk f stored) [⟨⟨[n], [some n], t.size⟩, [1], [0], [1], [0], [1], t.size, 0, b, f, stored.length⟩] mem = .ok m ∧
      m b = 0x78 ∧ some (m b) ≠ data.head? ∧ data.head? ≠ none := by
  refine ⟨(C78_filters_violated enc nm t [n] [some n] p ht (by simp) hp).2.1, ?_⟩
  obtain ⟨k, hk⟩ : ∃ k, p.filters.length = k + 1 := by
    cases h : p.filters with
    | nil => exact absurd h hp
    | cons a l => exact ⟨_, rfl⟩
  have hw : writeFilter z p.filters data = .ok (times z.comp p.filters.length data) := by
    rw [writeFilter, if_neg hp, filter_ok hb hp hs]
  have hh : (times z.comp p.filters.length data).head? = some 0x78 := by
    rw [hk, times_succ]; exact hz _
  obtain ⟨m, hm, hv⟩ := Dset.read_one (writeAt disk f (times z.comp p.filters.length data)) mem n t.size f b ht0 t.size
    ((times z.comp p.filters.length data).length : Nat)
  have hlen : 0 < (times z.comp p.filters.length data).length := by
    cases h : times z.comp p.filters.length data with
    | nil => rw [h] at hh; cases hh
    | cons x l => simp
  have hx : m b = 0x78 := by
    rw [hv]
    have := writeAt_in (disk := disk) (off := f) (i := 0) hlen
    rw [Nat.add_zero] at this
    rw [this]
    rw [List.head?_eq_getElem?, List.getElem?_eq_getElem hlen] at hh
    exact Option.some.inj hh
  refine ⟨_, m, hw, hm, hx, ?_, ?_⟩
  · rw [hx]; exact fun h => hd h.symm
  · cases data with
    | nil => simp at hl; omega
    | cons => simp

private def exZ : Zlib := ⟨fun x => 0x78 :: x, fun n => n + 1⟩

example : ∃ stored m, writeFilter exZ [.deflate] [1, 2, 3, 4] = .ok stored ∧
    readHits (writeAt (fun _ => 0) 100 stored) [⟨⟨[3], [some 3], 4⟩, [1], [0], [1], [0], [1], 4, 0, 8, 100, stored.length⟩] (fun _ => 0) = .ok m ∧
      m 8 = 0x78 := by
  obtain ⟨s, m, h1, h2, h3, _⟩ := (C78_data_violated true exZ (fun _ => by simp [exZ]) (fun _ => rfl) ['a'] exT 3 exD rfl (by decide)
    (by intro f hf; simpa [exD] using hf) [1, 2, 3, 4] rfl (by decide) (by decide) (fun _ => 0) (fun _ => 0) 100 8).2
  exact ⟨s, m, h1, h2, h3⟩

/-- A null dataspace becomes a scalar one. -/
theorem C78_null_violated (n : Name) (t : DType) (p : DCpl) (ht : t.varStr = false) :
    ((Spec.Dset.St.new [p]).run [.create n t .null 0, .getSpace 0]).2 = [.handle 0, .space .null] ∧
    (∃ m, (Dset.St.new [p]).run false [.create n t .null 0, .getSpace 0] = .ok (m, [.handle 0, .space .scalar])) :=
  ⟨rfl, _, Dset.run_cons (Dset.create_one false n t .null p ht (fun h => by cases h)) rfl⟩

example : ∃ m, (Dset.St.new [exP]).run false [.create ['a'] exT .null 0, .getSpace 0] = .ok (m, [.handle 0, .space .scalar]) :=
  (C78_null_violated ['a'] exT exP rfl).2

/-- With selection encoding, creating a dataset whose dataspace is scalar or null is undefined, in any state of the file. -/
theorem C78_scalar_violated (m : Dset.St) (n : Name) (t : DType) (sp : Space) (k : Nat) (p : DCpl)
    (hk : m.plists[k]? = some p) (hn : ∀ a ∈ m.anchors, a.name ≠ n) (ht : t.varStr = false) (hs : sp = .scalar ∨ sp = .null) :
    m.step true (.create n t sp k) = .ub := by
  have : m.anchors.any (fun a => a.name == n) = false := by
    rw [List.any_eq_false]
    intro a ha
    simpa using hn a ha
  simp only [Verif.Dset.St.step, Verif.Dset.St.create, ht, hk, this, Bool.false_eq_true, if_false]
  rcases hs with rfl | rfl <;> rfl

example : (Dset.St.new [exP]).run true [.create ['a'] exT .scalar 0] = .ub := by
  unfold Verif.Dset.St.run
  rw [C78_scalar_violated (Dset.St.new [exP]) ['a'] exT .scalar 0 exP rfl (by simp [Verif.Dset.St.new]) rfl (.inl rfl)]
  rfl

/-- `H5Dget_storage_size` and `H5Dget_space_status` fail for every dataset. -/
theorem C78_storage_violated (enc : Bool) (m m' : Dset.St) (h : Nat) (o : Out)
    (hs : m.step enc (.getStorage h) = .ok (m', o) ∨ m.step enc (.getStatus h) = .ok (m', o)) : o = .failed ∧ m' = m := by
  have : ∀ f : Verif.Dset.Handle → Verif.Dset.Info → Out, (∀ x i, f x i = .failed) → m.ask h f = .ok (m', o) → o = .failed := by
    intro f hf ha
    unfold Verif.Dset.St.ask at ha
    split at ha
    · cases ha; rfl
    · split at ha
      · cases ha
      · cases ha; exact hf _ _
  rcases hs with hs | hs
  · exact ⟨this _ (fun _ _ => rfl) hs, Dset.ask_same hs⟩
  · exact ⟨this _ (fun _ _ => rfl) hs, Dset.ask_same hs⟩

example : ∃ m, (Dset.St.new [exP]).run true [.create ['a'] exT (.simple [2] [none]) 0, .getStorage 0, .getStatus 0] =
    .ok (m, [.handle 0, .failed, .failed]) ∧
    ((Spec.Dset.St.new [exP]).run [.create ['a'] exT (.simple [2] [none]) 0, .getStorage 0, .getStatus 0]).2 = [.handle 0, .done, .done] :=
  ⟨_, rfl, rfl⟩

/-- An `H5Dset_extent` that fails: the dimensions before the one that is too large are changed, for `H5Dget_space`, until
the file is reopened. -/
theorem C78_extent_violated (enc : Bool) (n : Name) (t : DType) (p : DCpl) (a a' b b' mb : Nat) (ht : t.varStr = false)
    (ha : a ≠ a') (hb : mb < b') (hn : n.head? ≠ some '.') :
    ((Spec.Dset.St.new [p]).run [.create n t (.simple [a, b] [none, some mb]) 0, .setExtent 0 [a', b'], .getSpace 0, .reopen,
        .open n, .getSpace 1]).2 =
      [.handle 0, .failed, .space (.simple [a, b] [none, some mb]), .done, .handle 1, .space (.simple [a, b] [none, some mb])] ∧
    (∃ m, (Dset.St.new [p]).run enc [.create n t (.simple [a, b] [none, some mb]) 0, .setExtent 0 [a', b'], .getSpace 0, .reopen,
        .open n, .getSpace 1] =
      .ok (m, [.handle 0, .failed, .space (.simple [a', b] [none, some mb]), .done, .handle 1,
        .space (.simple [a, b] [none, some mb])])) ∧
    a ≠ a' := by
  refine ⟨?_, ?_, ha⟩
  · have hr : Spec.Dset.resize (.simple [a, b] [none, some mb]) [a', b'] = none := by
      simp [Spec.Dset.resize, hb]
    simp [Spec.Dset.St.run, Spec.Dset.St.step, Spec.Dset.St.new, Spec.Dset.St.ask, Spec.Dset.St.decl, List.findIdx?_cons, hr]
  · let m1 : Dset.St := Dset.one { p with layout := .contiguous } { p with layout := .contiguous } n t
      (.simple [a, b] [none, some mb]) p.filters
    let m2 : Dset.St := { m1 with infos :=
      [some ⟨t, [a', b], [none, some mb], p.filters, ({ p with layout := .contiguous } : DCpl).fillBytes t.size⟩] }
    have h2 : m1.step enc (.setExtent 0 [a', b']) = .ok (m2, .failed) := by
      have hl : extentLoop [none, some mb] [a', b'] [a, b] = (false, [a', b]) := by
        simp [extentLoop, hb]
      simp only [Verif.Dset.St.step, Verif.Dset.St.setExtent, Verif.Dset.St.handle, m1, Dset.one, List.getElem?_cons_zero,
        Option.join_some, Space.extent, hl]
      rfl
    let m3 : Dset.St := { m1 with
      infos := [some ⟨t, [a, b], [none, some mb], [], ({ p with layout := .contiguous } : DCpl).fillBytes t.size⟩]
      handles := [none] }
    have h4 : m2.step enc .reopen = .ok (m3, .done) := by
      simp only [Verif.Dset.St.step, m2, m1, Dset.one, Verif.Dset.visit, hn, if_false, Verif.Dset.buildInfo, Space.extent]
      simp only [List.cons_ne_nil, and_false, if_false]
      rfl
    have h5 : m3.step enc (.open n) = .ok ({ m3 with handles := [none, some ⟨0, ⟨.contiguous, [], p.fill⟩⟩] }, .handle 1) := by
      simp only [Verif.Dset.St.step, Verif.Dset.St.open, m3, m1, Dset.one, List.findIdx?_cons, beq_self_eq_true, if_true,
        List.getElem?_cons_zero]
      rfl
    exact ⟨_, Dset.run_cons (Dset.create_one enc n t _ p ht (fun _ => by simp [Space.extent])) (Dset.run_cons h2
      (Dset.run_cons rfl (Dset.run_cons h4 (Dset.run_cons h5 rfl))))⟩

example : ∃ m, (Dset.St.new [exP]).run true [.create ['a'] exT (.simple [2, 3] [none, some 4]) 0, .setExtent 0 [7, 5], .getSpace 0,
    .reopen, .open ['a'], .getSpace 1] = .ok (m, [.handle 0, .failed, .space (.simple [7, 3] [none, some 4]), .done, .handle 1,
      .space (.simple [2, 3] [none, some 4])]) :=
  (C78_extent_violated true ['a'] exT exP 2 7 3 5 4 rfl (by decide) (by decide) (by decide)).2.1

end Verif.Props
