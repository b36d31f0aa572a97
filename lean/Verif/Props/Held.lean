import Verif.Lemmas.HeldHist
import Verif.Lemmas.HeldFresh

/-
C73: what reads, writes, flushes and metadata updates leave behind.
-/

namespace Verif.Props

open Verif.Held

/-! ### Any history, any failures -/

/-- No call, and no close after it, releases or uses anything that is not held, whatever has failed before, unless a read that needs a
conversion has been queued. -/
theorem C73_safe_partial (c : Conf) (md : List Nat) (xs : List Call) (hq : ∀ x ∈ xs, Quiet x) :
    ∀ o ∈ runs c xs (St.opened md), o.1 ≠ .ub ∧ ∀ p, ∀ e ∈ close c p o.2, e.1 ≠ .ub := by
  intro o ho
  obtain ⟨bs, h1, Z, h2⟩ := runs_own (own_opened md) hq o ho
  refine ⟨by rw [h1]; simp, ?_⟩
  intro p e he
  rcases close_own (c := c) (p := p) h2 e he with ⟨h3, _⟩ | ⟨h3, _⟩ <;> (rw [h3]; simp)

/-- Nothing is held twice, whatever has failed and also if something undefined happens: each resource acquired is a new one, so that a release that
is defined gives back something that has not been given back before. -/
theorem C73_once (c : Conf) (md : List Nat) (xs : List Call) :
    ∀ o ∈ runs c xs (St.opened md), o.2.held.Nodup ∧ ∀ p, ∀ e ∈ close c p o.2, e.2.held.Nodup := by
  intro o ho
  have h := kp_runs c xs (St.opened md) ⟨List.nodup_nil, fun t ht => by cases ht⟩ o ho
  exact ⟨h.1, fun p e he => (kp_close c p o.2 h e he).1⟩

/-- What has an owner is never lost: whatever fails, after every call everything that is held and not of one of the sixteen kinds without
an owner is in the file's table of selections; after a close that succeeds nothing of those kinds is held. -/
theorem C73_owned (c : Conf) (md : List Nat) (xs : List Call) (hq : ∀ x ∈ xs, Quiet x) (bs : List Bool) (s : St)
    (h : (.ok bs, s) ∈ runs c xs (St.opened md)) :
    (∀ t ∈ s.held, t.kind ∈ lossy ∨ t ∈ s.file.keys) ∧
    ∀ p s', (.ok true, s') ∈ close c p s → ∀ t ∈ s'.held, t.kind ∈ lossy := by
  obtain ⟨_, _, Z, h2⟩ := runs_own (own_opened md) hq _ h
  constructor
  · intro t ht
    rcases List.mem_append.mp (h2.held.mem_iff.mp ht) with ht | ht
    · rcases h2.kinds ht with h3 | h3
      · left
        simp only [List.mem_cons, List.not_mem_nil, or_false] at h3
        rcases h3 with h3 | h3 | h3 | h3 | h3 | h3 | h3 | h3 | h3 <;> (rw [h3]; decide)
      · exact Or.inr h3.1
    · exact Or.inl (fragile_lossy (h2.frag t ht))
  · intro p s' hc t ht
    rcases close_own (c := c) (p := p) h2 _ hc with ⟨h3, _⟩ | ⟨_, V, h4, h5, _⟩
    · simp at h3
    · refine fragile_lossy ?_
      rcases List.mem_append.mp (h4.mem_iff.mp ht) with ht | ht
      · exact h5 t ht
      · exact h2.frag t ht

/-! ### Histories of calls that succeed -/

/-- The whole bill: after a history of calls that succeed (no limit on the metadata buffer, reads collective and not queued) and a close that
succeeds, exactly this is left. -/
theorem C73_bill_partial (c : Conf) (md : List Nat) (xs : List Call) (s s' : St) (p : FArgs) (L : List Kind) (hl : c.limited = false)
    (hp : ∀ x ∈ xs, Plain x) (h : Billed c (St.opened md) xs s L) (hc : (.ok true, s') ∈ close c p s) :
    (s'.held.map (·.kind)).Perm L := by
  obtain ⟨Z, h1, h2, h3, h4⟩ := h.own hl hp (own_opened md) rfl (by simp [St.opened, File.opened]) (fun _ => rfl)
  rcases close_own (c := c) (p := p) h1 _ hc with ⟨h5, _⟩ | ⟨_, V, h5, _, _, _, h6⟩
  · simp at h5
  · rw [h6 h3 h4] at h5
    have := h5.map (·.kind)
    simp only [List.nil_append, List.append_nil] at this
    exact this.trans h2

/-- The calls leave nothing: writes do if metadata is merged and another option of `config` is set, reads do if nothing is selected or if
they rebuild the index with more than one metadata dataset or from a compact index. -/
def Free (c : Conf) : St → List Call → St → Prop
  | s, [], s' => s' = s
  | s, x :: xs, s' => ∃ s1, (.ok true, s1) ∈ call c x s ∧ Free c s1 xs s' ∧
    match x with
    | .write p => p.empty = true ∨ (c.merge && c.other) = false
    | .read p => p.empty = false ∧ (idle s.file p = true ∨ (c.compact = false ∧ s1.file.md.length ≤ 1))
    | .flush _ => True

/-- Nothing is left after such a history and a close that succeeds. -/
theorem C73_clean_partial (c : Conf) (md : List Nat) (xs : List Call) (s s' : St) (p : FArgs) (hl : c.limited = false)
    (hp : ∀ x ∈ xs, Plain x) (h : Free c (St.opened md) xs s) (hc : (.ok true, s') ∈ close c p s) : s'.held = [] := by
  have key : ∀ (xs : List Call) (s0 s : St), Free c s0 xs s → Billed c s0 xs s [] := by
    intro xs
    induction xs with
    | nil => intro s0 s h; rw [show s = s0 from h]; exact .nil _
    | cons x xs ih =>
      intro s0 s h
      obtain ⟨s1, h1, h2, h3⟩ := h
      have hb : bill c s0 x s1 = [] := by
        cases x with
        | write p =>
          unfold bill
          rcases h3 with h3 | h3 <;> simp only [h3] <;> simp
        | read p =>
          obtain ⟨h3, h4⟩ := h3
          unfold bill
          simp only [h3]
          rcases h4 with h4 | ⟨h4, h5⟩
          · simp [h4]
          · have e : s1.file.md.length - 1 = 0 := by omega
            simp [h4, e]
        | flush p => rfl
      have := Billed.cons h1 (ih s1 s h2)
      rw [hb] at this
      exact this
  have := C73_bill_partial c md xs s s' p [] hl hp (key xs _ _ h) hc
  simpa using this

/-- Without reads nothing is left, unless metadata is merged and another option of `config` is set. -/
theorem C73_writes (c : Conf) (md : List Nat) (xs : List Call) (s s' : St) (p : FArgs) (L : List Kind) (hl : c.limited = false)
    (hm : (c.merge && c.other) = false)
    (hw : ∀ x ∈ xs, (∃ w, x = .write w) ∨ ∃ f, x = .flush f ∧ f.reads = false) (h : Billed c (St.opened md) xs s L)
    (hc : (.ok true, s') ∈ close c p s) : s'.held = [] := by
  have key : ∀ {s0 s : St} {xs : List Call} {L : List Kind}, Billed c s0 xs s L →
      (∀ x ∈ xs, (∃ w, x = .write w) ∨ ∃ f, x = .flush f ∧ f.reads = false) → L = [] := by
    intro s0 s xs L hb
    induction hb with
    | nil s => intro _; rfl
    | cons h1 _ ih =>
      intro hw
      rw [ih (fun y hy => hw y (List.mem_cons_of_mem _ hy)), List.nil_append]
      rcases hw _ (List.mem_cons_self ..) with ⟨w, rfl⟩ | ⟨f, rfl, _⟩
      · unfold bill
        simp [hm]
      · rfl
  rw [key h hw] at h
  have := C73_bill_partial c md xs s s' p [] hl (by
    intro x hx
    rcases hw x hx with ⟨w, rfl⟩ | ⟨f, rfl, h⟩
    · exact trivial
    · exact h) h hc
  simpa using this

/-! ### Updates of the index, after any history with any failures -/

/-- A read that succeeds leaves one dataspace for every metadata dataset but the last whenever it rebuilds the index, and with a compact index
all entries stay held. -/
theorem C73_update_violated (c : Conf) (md : List Nat) (xs : List Call) (hq : ∀ x ∈ xs, Quiet x) (bs : List Bool) (s s' : St)
    (h : (.ok bs, s) ∈ runs c xs (St.opened md)) (p : RArgs) (hl : c.limited = false) (he : p.empty = false) (hn : p.queue = false)
    (hr : (.ok true, s') ∈ call c (.read p) s) :
    s'.count .mdsid = s.count .mdsid + (if idle s.file p then 0 else s'.file.md.length - 1) ∧
    (c.compact = true → s'.count .ent = s.count .ent + (if idle s.file p then 0 else s'.file.md.sum)) := by
  obtain ⟨_, _, Z, h2⟩ := runs_own (own_opened md) hq _ h
  obtain ⟨V, h3, h4⟩ := read_own (c := c) (p := p) h2 (by rw [hn]; simp) _ hr
  rcases h4 with h4 | ⟨_, h4⟩
  · simp at h4
  unfold ReadDone at h4
  rw [if_neg (by rw [he]; simp), if_neg (by rw [hn]; simp)] at h4
  have m1 := h2.count (k := .mdsid) (by decide)
  have m2 := h3.count (k := .mdsid) (by decide)
  have e1 := h2.count (k := .ent) (by decide)
  have e2 := h3.count (k := .ent) (by decide)
  simp only [List.map_append, List.count_append, if_neg (show ¬ Kind.mdsid = .ent by decide)] at m1 m2
  simp only [List.map_append, List.count_append, if_true] at e1 e2
  cases hi : idle s.file p with
  | true =>
    obtain ⟨g1, g2⟩ := searched_idle hl h4.2 hi
    rw [g2] at m2 e2
    rw [g1] at e2
    simp only [List.count_nil] at m2 e2
    rw [m1, m2, e1, e2]
    simp
  | false =>
    obtain ⟨f1, ts, g1, g2, g3, g4⟩ := searched_busy hl h4.2 hi
    have bufs : ∀ k ∈ [Kind.mdsid, .ent], ((if (flushedIf (p.coll && (s.file.pending || p.more || p.else_)) p.more p.else_ s.file).dirty then
        ((flushedIf (p.coll && (s.file.pending || p.more || p.else_)) p.more p.else_ s.file).wq.flatMap (·.bufs)).map (·.kind) else []) :
        List Kind).count k = 0 := by
      intro k hk
      rw [List.count_eq_zero]
      intro hmem
      split at hmem
      · obtain ⟨t, ht, rfl⟩ := List.mem_map.mp hmem
        obtain ⟨w, hw, hb⟩ := List.mem_flatMap.mp ht
        have : t.kind = .xbuf := by
          unfold flushedIf at hw
          split at hw
          · exact absurd hw (by simp [flushed])
          · exact h2.inv.wq w hw t hb
        rw [this] at hk
        revert hk; decide
      · exact absurd hmem (by simp)
    have n1 := (List.perm_iff_count.mp g4) .mdsid
    have n2 := (List.perm_iff_count.mp g4) .ent
    simp only [List.count_append, bufs .mdsid (by decide), List.count_replicate, beq_self_eq_true, if_true] at n1
    simp only [List.count_append, bufs .ent (by decide), List.count_replicate, beq_self_eq_true, if_true] at n2
    rw [if_neg (by decide)] at n1 n2
    have g5 : s'.file.idx.length = (if c.compact then s'.file.md.sum else 0) := by
      rw [← g3]
      exact congrArg (fun f => f.idx.length) g2
    constructor
    · simp only [Bool.false_eq_true, if_false]
      omega
    · intro hcc
      rw [hcc] at g5
      simp only [if_true] at g5
      simp only [Bool.false_eq_true, if_false]
      omega

/-- With a limited metadata buffer a read that succeeds leaves the offsets of every part it loads. -/
theorem C73_parts_violated (c : Conf) (md : List Nat) (xs : List Call) (hq : ∀ x ∈ xs, Quiet x) (bs : List Bool) (s s' : St)
    (h : (.ok bs, s) ∈ runs c xs (St.opened md)) (p : RArgs) (hl : c.limited = true) (he : p.empty = false) (hn : p.queue = false)
    (hr : (.ok true, s') ∈ call c (.read p) s) : s'.count .secs = s.count .secs + p.env.parts.length := by
  obtain ⟨_, _, Z, h2⟩ := runs_own (own_opened md) hq _ h
  obtain ⟨V, h3, h4⟩ := read_own (c := c) (p := p) h2 (by rw [hn]; simp) _ hr
  rcases h4 with h4 | ⟨_, h4⟩
  · simp at h4
  unfold ReadDone at h4
  rw [if_neg (by rw [he]; simp), if_neg (by rw [hn]; simp)] at h4
  obtain ⟨_, h4⟩ := h4
  unfold Searched at h4
  rw [if_pos hl] at h4
  obtain ⟨k, ts, _, h5⟩ := h4
  have m1 := h2.count (k := .secs) (by decide)
  have m2 := h3.count (k := .secs) (by decide)
  simp only [List.map_append, List.count_append, if_neg (show ¬ Kind.secs = .ent by decide)] at m1 m2
  have n1 := (List.perm_iff_count.mp h5) .secs
  simp only [List.count_append, List.count_replicate, beq_self_eq_true, if_true] at n1
  rw [if_neg (show ¬ (Kind.ent == Kind.secs) = true by decide)] at n1
  have z : ((if (flushedIf (p.coll && (s.file.pending || p.more || p.else_)) p.more p.else_ s.file).dirty then
      ((flushedIf (p.coll && (s.file.pending || p.more || p.else_)) p.more p.else_ s.file).wq.flatMap (·.bufs)).map (·.kind) else []) :
      List Kind).count .secs = 0 := by
    rw [List.count_eq_zero]
    intro hmem
    split at hmem
    · obtain ⟨t, ht, hk⟩ := List.mem_map.mp hmem
      obtain ⟨w, hw, hb⟩ := List.mem_flatMap.mp ht
      have : t.kind = .xbuf := by
        unfold flushedIf at hw
        split at hw
        · exact absurd hw (by simp [flushed])
        · exact h2.inv.wq w hw t hb
      rw [this] at hk
      revert hk; decide
    · exact absurd hmem (by simp)
  omega

/-- A read of nothing that succeeds leaves the description of its selection. -/
theorem C73_empty_violated (c : Conf) (md : List Nat) (xs : List Call) (hq : ∀ x ∈ xs, Quiet x) (bs : List Bool) (s s' : St)
    (h : (.ok bs, s) ∈ runs c xs (St.opened md)) (p : RArgs) (he : p.empty = true) (hr : (.ok true, s') ∈ call c (.read p) s) :
    (s'.held.map (·.kind)).Perm (.sel :: s.held.map (·.kind)) := by
  obtain ⟨_, _, Z, h2⟩ := runs_own (own_opened md) hq _ h
  have hr' : (.ok true, s') ∈ Held.read c { p with conv := false } s := by
    have e : Held.read c { p with conv := false } = Held.read c p := by
      unfold Held.read dsetiRead
      simp only [he, if_true]
    rw [e]
    exact hr
  obtain ⟨V, h3, h4⟩ := read_own h2 (fun _ => rfl) _ hr'
  rcases h4 with h4 | ⟨_, h4⟩
  · simp at h4
  unfold ReadDone at h4
  rw [if_pos he] at h4
  obtain ⟨hf, hV⟩ := h4
  have e1 := h2.held
  have e2 := h3.held
  rw [hf] at e2
  have e3 := e2.map (·.kind)
  have e4 := e1.map (·.kind)
  simp only [List.map_append, hV] at e3 e4
  refine e3.trans ?_
  refine List.Perm.trans ?_ (e4.symm.cons _)
  simp only [List.map_nil, List.append_nil, List.singleton_append]
  exact List.perm_middle

/-! ### Witnesses -/

namespace HeldEx

/-- No options. -/
def c0 : Conf := ⟨false, false, false, true, false, false⟩

/-- A write that packs into a buffer. -/
def w0 : WArgs := ⟨true, false, true, true, true, false, false, 0⟩

/-- A collective read that packs and converts. -/
def r0 : RArgs := ⟨true, false, true, true, true, false, false, true, false, false, ⟨0, []⟩⟩

def f0 : FArgs := ⟨false, false, false, ⟨0, []⟩⟩

/-- The results of the calls and of the close, and what is held then. -/
def closed (c : Conf) (xs : List (Call × Nat)) (md : List Nat) : Option (List Bool × Out Bool × List Kind) := do
  let o ← script c xs (St.opened md)
  let e ← (close c f0 o.2)[0]?
  pure (o.1, e.1, e.2.held.map (·.kind))

theorem closed_spec {c : Conf} {xs : List (Call × Nat)} {md : List Nat} {bs : List Bool} {r : Out Bool} {L : List Kind}
    (h : closed c xs md = some (bs, r, L)) :
    ∃ s s', (.ok bs, s) ∈ runs c (xs.map (·.1)) (St.opened md) ∧ (r, s') ∈ close c f0 s ∧ s'.held.map (·.kind) = L := by
  unfold closed at h
  cases h1 : script c xs (St.opened md) with
  | none => rw [h1] at h; simp at h
  | some o =>
    rw [h1] at h
    cases h2 : (close c f0 o.2)[0]? with
    | none => simp [h2] at h
    | some e =>
      simp only [h2, Option.bind_eq_bind, Option.bind_some, Option.pure_def, Option.some.injEq, Prod.mk.injEq] at h
      obtain ⟨rfl, rfl, rfl⟩ := h
      exact ⟨o.2, e.2, script_runs h1, List.mem_of_getElem? h2, rfl⟩

/-- What holds after a script holds after some history. -/
theorem scripted {c : Conf} {xs : List (Call × Nat)} {md : List Nat} (P : List Bool → St → Bool)
    (h : ((script c xs (St.opened md)).any fun o => P o.1 o.2) = true) :
    ∃ bs s, (.ok bs, s) ∈ runs c (xs.map (·.1)) (St.opened md) ∧ P bs s = true := by
  cases h1 : script c xs (St.opened md) with
  | none => rw [h1] at h; simp at h
  | some o =>
    rw [h1] at h
    exact ⟨o.1, o.2, script_runs h1, h⟩

/-- Some outcome is undefined. -/
def anyUb (l : List (Out Bool × St)) : Bool := l.any fun e => e.1 == .ub

end HeldEx

open HeldEx

/-- A write whose packing fails loses its buffer and its request. -/
theorem C73_write_fails_violated : ∃ s s', (.ok [false], s) ∈ runs c0 [.write w0] (St.opened []) ∧ (.ok true, s') ∈ close c0 f0 s ∧
    s'.held.map (·.kind) = [.xbuf, .wreq] :=
  closed_spec (xs := [(.write w0, 1)]) (by decide +kernel)

/-- A queued read is forgotten by a close that succeeds. -/
theorem C73_queue_violated : ∃ s s', (.ok [true], s) ∈ runs c0 [.read { r0 with queue := true }] (St.opened [3]) ∧
    (.ok true, s') ∈ close c0 f0 s ∧ s'.held.map (·.kind) = [.mtype, .dtype, .ptype, .xbuf, .rreq, .sel] :=
  closed_spec (xs := [(.read { r0 with queue := true }, 0)]) (by decide +kernel)

/-- With merged metadata and another option every write loses a request. -/
theorem C73_merge_violated : ∃ s s', (.ok [true, true], s) ∈ runs { c0 with merge := true, other := true } [.write w0, .write w0] (St.opened []) ∧
    (.ok true, s') ∈ close { c0 with merge := true, other := true } f0 s ∧ s'.held.map (·.kind) = [.wreq, .wreq] :=
  closed_spec (xs := [(.write w0, 0), (.write w0, 0)]) (by decide +kernel)

/-- An independent read of a file with flushed and unflushed writes loses the buffers of the unflushed ones. -/
theorem C73_independent_violated : ∃ s s', (.ok [true, true, true, true], s) ∈
      runs c0 [.write w0, .flush f0, .write { w0 with key := false }, .read { r0 with coll := false }] (St.opened []) ∧
    (.ok true, s') ∈ close c0 f0 s ∧ s'.held.map (·.kind) = [.xbuf] :=
  closed_spec (xs := [(.write w0, 0), (.flush f0, 0), (.write { w0 with key := false }, 0), (.read { r0 with coll := false }, 0)])
    (by decide +kernel)

/-- Two queued reads, the second with a conversion: if the conversion fails in a flush, the next flush uses the buffer of the first one, which
has been released. -/
theorem C73_safe_violated : ∃ s, (.ok [true, true, false], s) ∈ runs c0 [.read { r0 with conv := false, pack := false, queue := true },
      .read { r0 with pack := false, queue := true }, .flush f0] (St.opened [3]) ∧ ∃ e ∈ call c0 (.flush f0) s, e.1 = .ub := by
  obtain ⟨bs, s, h1, h2⟩ := scripted (c := c0) (md := [3]) (xs := [(.read { r0 with conv := false, pack := false, queue := true }, 0),
    (.read { r0 with pack := false, queue := true }, 0), (.flush f0, 1)]) (fun bs s => bs == [true, true, false] && anyUb (call c0 (.flush f0) s))
    (by decide +kernel)
  rw [Bool.and_eq_true, beq_iff_eq] at h2
  obtain ⟨rfl, h3⟩ := h2
  unfold anyUb at h3
  obtain ⟨e, h4, h5⟩ := List.any_eq_true.mp h3
  exact ⟨s, h1, e, h4, by simpa using h5⟩

/-! ### Examples -/

/-- The hypotheses of `C73_update_violated`: three metadata datasets, the read leaves two dataspaces, and with a compact index the second update
makes the entries of the first one unreachable. -/
example : ∃ s s', (.ok [true], s) ∈ runs c0 [.read r0] (St.opened [1, 1, 1]) ∧ (.ok true, s') ∈ close c0 f0 s ∧
    s'.held.map (·.kind) = [.mdsid, .mdsid] :=
  closed_spec (xs := [(.read r0, 0)]) (by decide +kernel)

example : ∃ s s', (.ok [true, true, true], s) ∈ runs { c0 with compact := true } [.read r0, .write w0, .read r0] (St.opened [2]) ∧
    (.ok true, s') ∈ close { c0 with compact := true } f0 s ∧ s'.held.map (·.kind) = [.mdsid, .ent, .ent] :=
  closed_spec (xs := [(.read r0, 0), (.write w0, 0), (.read r0, 0)]) (by decide +kernel)

/-- `C73_parts_violated`: two parts. -/
example : ∃ s s', (.ok [true], s) ∈ runs { c0 with limited := true } [.read { r0 with env := ⟨0, [2, 2]⟩ }] (St.opened [4]) ∧
    (.ok true, s') ∈ close { c0 with limited := true } f0 s ∧ s'.held.map (·.kind) = [.secs, .secs] :=
  closed_spec (xs := [(.read { r0 with env := ⟨0, [2, 2]⟩ }, 0)]) (by decide +kernel)

/-- `C73_empty_violated`: two reads of nothing. -/
example : ∃ s s', (.ok [true, true], s) ∈ runs c0 [.read { r0 with empty := true }, .read { r0 with empty := true }] (St.opened [4]) ∧
    (.ok true, s') ∈ close c0 f0 s ∧ s'.held.map (·.kind) = [.sel, .sel] :=
  closed_spec (xs := [(.read { r0 with empty := true }, 0), (.read { r0 with empty := true }, 0)]) (by decide +kernel)

/-- `C73_clean_partial`, `C73_writes`, `C73_safe_partial`, `C73_owned`: writes, a flush and a read of one metadata dataset. -/
example : ∃ s s', (.ok [true, true, true, true], s) ∈ runs c0 [.write w0, .flush f0, .write { w0 with key := false }, .read r0] (St.opened []) ∧
    (.ok true, s') ∈ close c0 f0 s ∧ s'.held.map (·.kind) = [] :=
  closed_spec (xs := [(.write w0, 0), (.flush f0, 0), (.write { w0 with key := false }, 0), (.read r0, 0)]) (by decide +kernel)

/-- A write that fails keeps its key until the close. -/
example : ∃ s, (.ok [false], s) ∈ runs c0 [.write w0] (St.opened []) ∧ s.file.keys.length = 1 := by
  obtain ⟨bs, s, h1, h2⟩ := scripted (c := c0) (md := []) (xs := [(.write w0, 1)])
    (fun bs s => bs == [false] && s.file.keys.length == 1) (by decide +kernel)
  rw [Bool.and_eq_true, beq_iff_eq, beq_iff_eq] at h2
  obtain ⟨rfl, h3⟩ := h2
  exact ⟨s, h1, h3⟩

end Verif.Props
