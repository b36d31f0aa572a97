import Verif.Lemmas.HeldTop
import Verif.Spec.Held

/-
Histories of calls.
-/

namespace Verif.Held

theorem call_own {c : Conf} {x : Call} {s : St} {Y : List Tok} (h : Own s Y) (hq : Quiet x) :
    wp (call c x) s fun o s' => ∃ b, o = .ok b ∧ ∃ Z, Own s' (Z ++ Y) := by
  cases x with
  | write p =>
    refine wp_mono (write_own (c := c) (p := p) h) ?_
    rintro o s' ⟨Z, h1, _, rfl | ⟨rfl, _⟩⟩
    · exact ⟨_, rfl, Z, h1⟩
    · exact ⟨_, rfl, Z, h1⟩
  | read p =>
    refine wp_mono (read_own (c := c) (p := p) h hq) ?_
    rintro o s' ⟨Z, h1, rfl | ⟨rfl, _⟩⟩
    · exact ⟨_, rfl, Z, h1⟩
    · exact ⟨_, rfl, Z, h1⟩
  | flush p =>
    refine wp_mono (flush_own (c := c) (p := p) h) ?_
    rintro o s' ⟨Z, h1, rfl | ⟨rfl, _⟩⟩
    · exact ⟨_, rfl, Z, h1⟩
    · exact ⟨_, rfl, Z, h1⟩

theorem runs_own {c : Conf} : ∀ {xs : List Call} {s : St} {Y : List Tok}, Own s Y → (∀ x ∈ xs, Quiet x) →
    wp (runs c xs) s fun o s' => ∃ bs, o = .ok bs ∧ ∃ Z, Own s' (Z ++ Y)
  | [], s, Y, h, _ => wp_pure ⟨[], rfl, [], h⟩
  | x :: xs, s, Y, h, hq => by
    refine wp_bind (wp_mono (call_own h (hq x (by simp))) ?_)
    rintro o s1 ⟨b, rfl, Z, h1⟩
    refine wp_bind (wp_mono (runs_own h1 (fun y hy => hq y (by simp [hy]))) ?_)
    rintro o s2 ⟨bs, rfl, V, h2⟩
    exact wp_pure ⟨b :: bs, rfl, V ++ Z, by rw [List.append_assoc]; exact h2⟩

/-- The kinds of what the file refers to. -/
theorem Own.kinds {s : St} {Y : List Tok} (h : Own s Y) {t : Tok} (ht : t ∈ s.file.toks ++ s.file.rq.flatMap RQ.toks) :
    t.kind ∈ [Kind.wreq, .mreq, .xbuf, .rreq, .sel, .ptype, .dtype, .mtype, .ent] ∨ (t ∈ s.file.keys ∧ t.kind = .key) := by
  have isreq : ∀ {t : Tok}, IsReq t → t.kind ∈ [Kind.wreq, .mreq, .xbuf, .rreq, .sel, .ptype, .dtype, .mtype, .ent] := by
    rintro t (h | h) <;> (rw [h]; decide)
  have isbuf : ∀ {t : Tok}, t.kind = .xbuf → t.kind ∈ [Kind.wreq, .mreq, .xbuf, .rreq, .sel, .ptype, .dtype, .mtype, .ent] := by
    intro t h; rw [h]; decide
  obtain ⟨k1, k2, k3, k4⟩ := h.inv.kinds
  unfold File.toks at ht
  simp only [List.mem_append, List.mem_flatMap, List.mem_map, List.mem_cons] at ht
  rcases ht with (((((⟨w, hw, ht⟩ | ⟨w, hw, rfl⟩) | ⟨m, hm, ht⟩) | ht) | ht)) | ⟨r, hr, ht⟩
  · rcases ht with rfl | ht
    · exact Or.inl (isreq (k1 w hw))
    · exact Or.inl (isbuf (h.inv.wq w hw t ht))
  · exact Or.inl (isreq (k2 w hw))
  · rcases ht with rfl | ht
    · exact Or.inl (isreq (k3 m hm))
    · exact Or.inl (isbuf ((h.inv.mq m hm).2 t ht))
  · exact Or.inr ⟨ht, k4 t ht⟩
  · refine Or.inl ?_
    rw [h.inv.idx t ht]; decide
  · refine Or.inl ?_
    have := (h.rq r hr).1.kinds t ht
    simp only [List.mem_cons, List.not_mem_nil, or_false] at this ⊢
    tauto

theorem fragile_lossy {k : Kind} : fragile k = true → k ∈ lossy := by cases k <;> decide

theorem Own.held {s : St} {Y : List Tok} (h : Own s Y) : s.held.Perm (s.file.toks ++ s.file.rq.flatMap RQ.toks ++ Y) := by
  have hp := h.good
  unfold Good at hp
  rw [h.loc] at hp
  permc hp

/-- How many of a kind are held that the file refers to only in its index. -/
theorem Own.count {s : St} {Y : List Tok} (h : Own s Y) {k : Kind} (hk : k ∈ [Kind.mdsid, .secs, .ent]) :
    s.count k = (if k = .ent then s.file.idx.length else 0) + (Y.map (·.kind)).count k := by
  unfold St.count
  rw [h.held.countP_eq, List.countP_append]
  have hY : Y.countP (fun t => decide (t.kind = k)) = (Y.map (·.kind)).count k := by
    rw [List.count, List.countP_map]
    congr 1
  rw [hY]
  congr 1
  have zero : ∀ l : List Tok, (∀ t ∈ l, t.kind ≠ k) → l.countP (fun t => decide (t.kind = k)) = 0 := by
    intro l hl
    rw [List.countP_eq_zero]
    intro t ht
    simpa using hl t ht
  obtain ⟨k1, k2, k3, k4⟩ := h.inv.kinds
  have nreq : ∀ {t : Tok}, IsReq t → t.kind ≠ k := by
    rintro t (h | h) e <;> (rw [h] at e; subst e; revert hk; decide)
  have nbuf : ∀ {t : Tok}, t.kind = .xbuf → t.kind ≠ k := by
    intro t h e; rw [h] at e; subst e; revert hk; decide
  unfold File.toks
  simp only [List.countP_append]
  rw [zero (s.file.wq.flatMap _), zero (s.file.done.map _), zero (s.file.mq.flatMap _), zero s.file.keys, zero (s.file.rq.flatMap _)]
  · simp only [Nat.zero_add, Nat.add_zero]
    by_cases he : k = .ent
    · rw [if_pos he, List.countP_eq_length]
      intro t ht
      simp [h.inv.idx t ht, he]
    · rw [if_neg he]
      refine zero _ ?_
      intro t ht e
      rw [h.inv.idx t ht] at e
      exact he e.symm
  · intro t ht e
    obtain ⟨r, hr, ht⟩ := List.mem_flatMap.mp ht
    have := (h.rq r hr).1.kinds t ht
    rw [e] at this
    revert hk this
    cases k <;> decide
  · intro t ht e
    have := k4 t ht
    rw [e] at this
    subst this
    revert hk; decide
  · intro t ht
    obtain ⟨m, hm, ht⟩ := List.mem_flatMap.mp ht
    rcases List.mem_cons.mp ht with rfl | ht
    · exact nreq (k3 m hm)
    · exact nbuf ((h.inv.mq m hm).2 t ht)
  · intro t ht
    obtain ⟨w, hw, rfl⟩ := List.mem_map.mp ht
    exact nreq (k2 w hw)
  · intro t ht
    obtain ⟨w, hw, ht⟩ := List.mem_flatMap.mp ht
    rcases List.mem_cons.mp ht with rfl | ht
    · exact nreq (k1 w hw)
    · exact nbuf (h.inv.wq w hw t ht)

theorem takeMerged_wq (f : File) : ((takeMerged f).wq ≠ []) ↔ f.pending = true := by
  unfold takeMerged File.pending
  simp only [ne_eq, List.append_eq_nil_iff, List.map_eq_nil_iff, List.filter_eq_nil_iff, Bool.or_eq_true, decide_eq_true_eq,
    List.any_eq_true]
  by_cases h : f.wq = []
  · simp [h, Nat.pos_iff_ne_zero]
  · simp [h]

/-- What a search finds after the pending writes have been flushed. -/
theorem searched_idle {c : Conf} {p : RArgs} {f f' : File} {L : List Kind} (hl : c.limited = false)
    (h : Searched c p.env (flushedIf (p.coll && (f.pending || p.more || p.else_)) p.more p.else_ f) f' L) (hi : idle f p = true) :
    f' = f ∧ L = [] := by
  unfold idle at hi
  simp only [Bool.and_eq_true, Bool.not_eq_true'] at hi
  obtain ⟨⟨h1, h2⟩, h3⟩ := hi
  rw [h3] at h
  unfold Searched flushedIf at h
  simp only [Bool.false_eq_true, if_false] at h
  have hs : saved f p.env.n = f := by unfold saved; rw [if_neg (by rw [h2]; simp)]
  rw [if_neg (by rw [hl]; simp), hs, if_pos h1] at h
  exact h

theorem searched_busy {c : Conf} {p : RArgs} {f f' : File} {L : List Kind} (hl : c.limited = false)
    (h : Searched c p.env (flushedIf (p.coll && (f.pending || p.more || p.else_)) p.more p.else_ f) f' L) (hi : idle f p = false) :
    ∃ f1 ts, f1 = saved (flushedIf (p.coll && (f.pending || p.more || p.else_)) p.more p.else_ f) p.env.n ∧
      f' = { f1 with valid := true, idx := ts } ∧ ts.length = (if c.compact then f'.md.sum else 0) ∧
      L.Perm ((if (flushedIf (p.coll && (f.pending || p.more || p.else_)) p.more p.else_ f).dirty then
        ((flushedIf (p.coll && (f.pending || p.more || p.else_)) p.more p.else_ f).wq.flatMap (·.bufs)).map (·.kind) else []) ++
        List.replicate f.idx.length .ent ++ List.replicate (f'.md.length - 1) .mdsid) := by
  generalize hg : flushedIf (p.coll && (f.pending || p.more || p.else_)) p.more p.else_ f = g at h
  have hidx : g.idx = f.idx := by
    rw [← hg]
    unfold flushedIf
    split <;> rfl
  have hv : (saved g p.env.n).valid = false := by
    unfold saved
    by_cases hd : g.dirty = true
    · rw [if_pos hd]; rfl
    · rw [if_neg hd]
      by_cases hb : (p.coll && (f.pending || p.more || p.else_)) = true
      · exfalso
        refine hd ?_
        rw [← hg]
        unfold flushedIf
        rw [if_pos hb]
        unfold flushed
        simp only [Bool.and_eq_true, Bool.or_eq_true] at hb
        simp only [Bool.or_eq_true, decide_eq_true_eq]
        rcases hb.2 with (h1 | h1) | h1
        · exact Or.inl (Or.inl (Or.inr ((takeMerged_wq f).mpr h1)))
        · exact Or.inl (Or.inr h1)
        · exact Or.inr h1
      · have e : g = f := by
          rw [← hg]
          unfold flushedIf
          rw [if_neg hb]
        rw [e] at hd ⊢
        unfold idle at hi
        simp only [Bool.not_eq_true] at hb hd
        rw [hb, hd] at hi
        simpa using hi
  unfold Searched at h
  rw [if_neg (by rw [hl]; simp), if_neg (by rw [hv]; simp)] at h
  obtain ⟨ts, h1, h2, h3⟩ := h
  rw [hidx] at h3
  exact ⟨_, ts, rfl, h1, h2, h3⟩

theorem flushedIf_rq (b more else_ : Bool) (f : File) : (flushedIf b more else_ f).rq = f.rq := by
  unfold flushedIf; split <;> rfl

theorem flushedIf_idx (b more else_ : Bool) (f : File) : (flushedIf b more else_ f).idx = f.idx := by
  unfold flushedIf; split <;> rfl

theorem flushedIf_pos {b more else_ : Bool} {f : File} (h : ∀ m ∈ f.mq, 0 < m.n) : ∀ m ∈ (flushedIf b more else_ f).mq, 0 < m.n := by
  unfold flushedIf
  split
  · intro m hm
    exact h m (List.mem_filter.mp hm).1
  · exact h

theorem saved_mq (f : File) (n : Nat) : (saved f n).mq = f.mq := by
  unfold saved; split <;> rfl

theorem Billed.own {c : Conf} {s s' : St} {xs : List Call} {L : List Kind} (hb : Billed c s xs s' L) (hl : c.limited = false) :
    ∀ {Y : List Tok}, (∀ x ∈ xs, Plain x) → Own s Y → s.file.rq = [] → (∀ m ∈ s.file.mq, 0 < m.n) → (c.compact = false → s.file.idx = []) →
    ∃ Z, Own s' (Z ++ Y) ∧ (Z.map (·.kind)).Perm L ∧ s'.file.rq = [] ∧ (∀ m ∈ s'.file.mq, 0 < m.n) := by
  induction hb with
  | nil s =>
    intro Y _ h1 h2 h3 _
    exact ⟨[], h1, List.Perm.refl _, h2, h3⟩
  | @cons s s1 s2 x xs L hm _ ih =>
    intro Y hp h1 h2 h3 h4
    have hpx := hp x (by simp)
    have step : ∃ Z, Own s1 (Z ++ Y) ∧ (Z.map (·.kind)).Perm (bill c s x s1) ∧ s1.file.rq = [] ∧ (∀ m ∈ s1.file.mq, 0 < m.n) ∧
        (c.compact = false → s1.file.idx = []) := by
      cases x with
      | write p =>
        obtain ⟨Z, o1, o2, o3⟩ := write_own (c := c) (p := p) h1 _ hm
        rcases o3 with o3 | ⟨_, o3, k1, k2, k3, k4, k5, k6⟩
        · simp at o3
        · refine ⟨Z, o1, ?_, by rw [o2]; exact h2, k6 h3, fun hc => by rw [k5]; exact h4 hc⟩
          rw [o3]
          have e : (c.merge && c.req) = (c.merge && c.other) := by
            unfold Conf.req
            cases c.merge <;> cases c.other <;> rfl
          unfold writeLoss bill
          rw [e]
      | read p =>
        obtain ⟨hcoll, hqu⟩ : p.coll = true ∧ p.queue = false := hpx
        obtain ⟨Z, o1, o2⟩ := read_own (c := c) (p := p) h1 (by rw [hqu]; simp) _ hm
        rcases o2 with o2 | ⟨_, o2⟩
        · simp at o2
        · unfold ReadDone at o2
          by_cases he : p.empty = true
          · rw [if_pos he] at o2
            refine ⟨Z, o1, ?_, by rw [o2.1]; exact h2, by rw [o2.1]; exact h3, fun hc => by rw [o2.1]; exact h4 hc⟩
            rw [o2.2]
            unfold bill
            simp [he]
          · rw [if_neg he, if_neg (by rw [hqu]; simp)] at o2
            obtain ⟨o2, o3⟩ := o2
            simp only [Bool.not_eq_true] at he
            cases hi : idle s.file p with
            | true =>
              obtain ⟨e1, e2⟩ := searched_idle hl o3 hi
              refine ⟨Z, o1, ?_, by rw [o2]; exact h2, by rw [e1]; exact h3, fun hc => by rw [e1]; exact h4 hc⟩
              rw [e2]
              unfold bill
              simp [he, hi]
            | false =>
              obtain ⟨f1, ts, e1, e2, e3, e4⟩ := searched_busy hl o3 hi
              refine ⟨Z, o1, ?_, by rw [o2]; exact h2, ?_, ?_⟩
              · have hw : (flushedIf (p.coll && (s.file.pending || p.more || p.else_)) p.more p.else_ s.file).wq = [] := by
                  unfold flushedIf
                  split
                  · rfl
                  · rename_i hn
                    rw [hcoll] at hn
                    simp only [Bool.true_and, Bool.or_eq_true, not_or, Bool.not_eq_true] at hn
                    have := hn.1.1
                    unfold File.pending at this
                    simpa using (Bool.or_eq_false_iff.mp this).1
                rw [hw] at e4
                have e5 : (if c.compact = true then s.file.idx.length else 0) = s.file.idx.length := by
                  split
                  · rfl
                  · rename_i hc
                    simp only [Bool.not_eq_true] at hc
                    rw [h4 hc]
                    rfl
                unfold bill
                simp only [he, hi, Bool.false_eq_true, if_false, e5]
                simpa using e4
              · rw [e2]
                simp only []
                rw [e1, saved_mq]
                exact flushedIf_pos h3
              · intro hc
                rw [hc] at e3
                rw [e2]
                simpa using e3
      | flush p =>
        have hr : p.reads = false := hpx
        obtain ⟨Z, o1, o2⟩ := flush_own (c := c) (p := p) h1 _ hm
        rcases o2 with o2 | ⟨_, o2, o3⟩
        · simp at o2
        · rw [if_neg (by rw [h2, hr]; simp)] at o3
          obtain ⟨e1, e2⟩ := o3
          refine ⟨Z, o1, ?_, o2, by rw [e1]; exact flushedIf_pos h3, fun hc => by rw [e1, flushedIf_idx]; exact h4 hc⟩
          rw [e2]
          exact List.Perm.refl _
    obtain ⟨Z, g1, g2, g3, g4, g5⟩ := step
    obtain ⟨V, g6, g7, g8, g9⟩ := ih (fun y hy => hp y (by simp [hy])) g1 g3 g4 g5
    refine ⟨V ++ Z, by rw [List.append_assoc]; exact g6, ?_, g8, g9⟩
    rw [List.map_append]
    exact g7.append g2

/-! ### Scripts for examples -/

/-- Each call with the outcome of the given number. -/
def script (c : Conf) : List (Call × Nat) → St → Option (List Bool × St)
  | [], s => some ([], s)
  | (x, i) :: xs, s =>
    match (call c x s)[i]? with
    | some (.ok b, s1) => (script c xs s1).map fun o => (b :: o.1, o.2)
    | _ => none

theorem script_runs {c : Conf} : ∀ {xs : List (Call × Nat)} {s s' : St} {bs : List Bool}, script c xs s = some (bs, s') →
    (.ok bs, s') ∈ runs c (xs.map (·.1)) s
  | [], s, s', bs, h => by
    simp only [script, Option.some.injEq, Prod.mk.injEq] at h
    obtain ⟨rfl, rfl⟩ := h
    simp [runs, pure]
  | (x, i) :: xs, s, s', bs, h => by
    unfold script at h
    split at h
    · rename_i b s1 he
      obtain ⟨⟨bs', s2⟩, h1, h2⟩ := Option.map_eq_some_iff.mp h
      simp only [Prod.mk.injEq] at h2
      obtain ⟨rfl, rfl⟩ := h2
      have ih := script_runs h1
      have hm : (.ok b, s1) ∈ call c x s := List.mem_of_getElem? he
      refine List.mem_flatMap.mpr ⟨_, hm, ?_⟩
      refine List.mem_flatMap.mpr ⟨_, ih, ?_⟩
      simp [pure]
    · cases h

end Verif.Held
