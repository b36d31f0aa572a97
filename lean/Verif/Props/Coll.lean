import Verif.Spec.Coll
import Verif.Lemmas.CollOps
import Verif.Lemmas.Script
import Verif.Props.FileEx

/-
C61: collective operations complete, and act as one step, whatever the order in which the processes run.
-/

namespace Verif.Props

open Verif _root_.Verif.Spec

variable {n : Net}

/-! ### Order of calls -/

theorem completes_of {α : Type} {P : Nat → Prog α} {W W' : Comm → Store} {a : Nat → α} (h : Ends n P W a W') :
    Completes n P W a W' := by
  obtain ⟨m, f, hs, hf⟩ := h
  have hd : f.done n := fun r hr => ⟨_, hf.1 r hr⟩
  refine ⟨m, fun l t ht => ?_⟩
  obtain ⟨h1, h2⟩ := confluent hs hd ht
  refine ⟨h1, fun hlt => ?_, fun he => ?_⟩
  · obtain ⟨j, hj⟩ : ∃ j, m - l = j + 1 := ⟨m - l - 1, by omega⟩
    rw [hj] at h2
    cases h2 with
    | head st _ => exact ⟨_, st⟩
  · rw [he, Nat.sub_self] at h2
    cases h2
    exact hf

theorem hangs_of {α : Type} {P : Nat → Prog α} {W : Comm → Store} (h : Goes n (Sys.stuck n) P W) : Hangs n P W := by
  obtain ⟨m, f, hs, hf⟩ := h
  exact ⟨⟨m, f, hs, hf⟩, fun l t ht => stuck_never hs hf ht⟩

theorem not_both {α : Type} {P : Nat → Prog α} {W W' : Comm → Store} {a : Nat → α} (h : Completes n P W a W') :
    ¬ Hangs n P W := by
  rintro ⟨⟨l, t, ht, hst⟩, -⟩
  obtain ⟨m, hm⟩ := h
  obtain ⟨h1, h2, h3⟩ := hm l t ht
  rcases Nat.lt_or_ge l m with hlt | hge
  · exact hst.2 (h2 hlt)
  · exact hst.1 (fun r hr => ⟨_, (h3 (by omega)).1 r hr⟩)

/-- C61: if the processes can complete their calls in one order, they do so in every order, with the same result; if they can get
stuck, they never complete. For any programs, calls and communicators. -/
theorem C61_order {α : Type} {n : Net} (h0 : 0 < n.np) (P : Nat → Prog α) (W : Comm → Store) :
    (∀ l t, Sys.Steps n l ⟨P, W⟩ t → t.done n → ∃ a, Completes n P W a t.file) ∧
    (∀ l t, Sys.Steps n l ⟨P, W⟩ t → t.stuck n → Hangs n P W) := by
  refine ⟨fun l t h hd => ?_, fun l t h hst => hangs_of ⟨l, t, h, hst⟩⟩
  obtain ⟨x0, -⟩ := hd 0 h0
  have hc : ∀ r : Nat, ∃ x : α, r < n.np → t.prog r = .ret x := by
    intro r
    by_cases hr : r < n.np
    · obtain ⟨x, hx⟩ := hd r hr
      exact ⟨x, fun _ => hx⟩
    · exact ⟨x0, fun h => absurd h hr⟩
  choose a ha using hc
  exact ⟨a, completes_of ⟨l, t, h, ha, rfl⟩⟩

/-! ### Data flush -/

/-- C61: the data flush completes in every order, with and without subfiling and for every distribution of the data, and leaves
in every group what one step of the whole group leaves. All processes then know whether there is metadata to flush. -/
theorem C61_flush_partial {sub : Bool} (hok : n.ok sub) (p : Nat → Proc) (W : Comm → Store) {st st' : Comm → FState}
    (hs : ∀ c ∈ n.comms, n.Sees c (st c) p W) (hf : ∀ c ∈ n.comms, (st c).flush (W c).next = .ok (st' c)) :
    ∃ p' W', Completes n (fun r => flushP sub (n.gc r) (p r)) W p' W' ∧
      (∀ c ∈ n.comms, n.Sees c (st' c) p' W') ∧ (∀ c, c ∉ n.comms → W' c = W c) ∧
      ∀ r, (p' r).nmd = (p r).nmd ∧
        ((p' r).dirty = true ↔ (p r).dirty = true ∨ ∃ q < n.np, (p q).k.localSize ≠ 0) := by
  refine ⟨_, _, completes_of (flush_ends hok p W), fun c hc => flush_sees hok hc (hs c hc) (hf c hc), fun c hc => ?_, fun r => ?_⟩
  · simp only [flushedW, if_neg (fun x : c ∈ n.comms ∧ _ => hc x.1)]
  · have hw : n.total p .world ≠ 0 ↔ ∃ q < n.np, (p q).k.localSize ≠ 0 := by
      constructor
      · intro h
        refine Decidable.byContradiction (fun hx => h ?_)
        refine List.sum_eq_zero_iff_forall_eq_nat.mpr (fun x hm => ?_)
        obtain ⟨q, hq, rfl⟩ := List.mem_map.mp hm
        exact Decidable.byContradiction (fun hz => hx ⟨q, List.mem_range.mp hq, hz⟩)
      · rintro ⟨q, hq, hz⟩ h
        exact hz ((List.sum_eq_zero_iff_forall_eq_nat.mp h) _ (List.mem_map.mpr ⟨q, List.mem_range.mpr hq, rfl⟩))
    unfold flushed
    by_cases h : n.total p .world ≠ 0
    · have := hw.mp h
      simp only [if_pos h]
      split <;> simp [this]
    · have : ¬ ∃ q < n.np, (p q).k.localSize ≠ 0 := fun x => h (hw.mpr x)
      simp only [if_neg h, this, or_false, and_self]

/-! ### Close -/

/-- Of the group of `r`, some process has queued a write since the last metadata flush. -/
def groupWrote (n : Net) (p : Nat → Proc) (r : Nat) : Prop := ∃ q < n.np, n.gc q = n.gc r ∧ (p q).k.wreqs ≠ []

theorem groupWrote_iff {sub : Bool} (hok : n.ok sub) {p : Nat → Proc} {r : Nat} (hr : r < n.np) :
    n.hasMeta p (n.gc r) = true ↔ groupWrote n p r := by
  have hc : n.gc r ∈ n.comms := mem_comms.mpr ⟨r, hr, rfl⟩
  rw [hasMeta_iff (mem_comms_ne hok hc)]
  constructor
  · rintro ⟨q, hq, hw⟩
    obtain ⟨h1, h2⟩ := (mem_gc hok hc).mp hq
    exact ⟨q, h1, h2, hw⟩
  · rintro ⟨q, h1, h2, hw⟩
    exact ⟨q, (mem_gc hok hc).mpr ⟨h1, h2⟩, hw⟩

/-- The close of process `r`. -/
def closesP (n : Net) (sub : Bool) (p : Nat → Proc) (r : Nat) : Prog Proc :=
  closeP sub (n.gc r) (n.pos r) (n.len (n.gc r)) (p r)

/-- C61: for every grouping, the close completes if and only if all groups have written something since the last metadata flush,
or none; otherwise it hangs, whatever the order. If it completes, the file of every group is that of one close of the group, and
its attribute has the number of its metadata datasets. -/
theorem C61_close_partial {sub : Bool} (hok : n.ok sub) (p : Nat → Proc) (W : Comm → Store) :
    ((∃ b : Prop, ∀ r < n.np, (groupWrote n p r ↔ b)) →
      ∃ p' W', Completes n (closesP n sub p) W p' W' ∧
        ∀ c ∈ n.comms, ∀ st st1, n.Sees c st p W → st.flush (W c).next = .ok st1 → (∀ r ∈ n.mem c, (p r).nmd = st.mds.length) →
          n.Sees c (st1.metaflush (nextAddr (W c).addr st1)) p' W' ∧
            (W' c).saved = (st1.metaflush (nextAddr (W c).addr st1)).mds.length) ∧
    ((¬ ∃ b : Prop, ∀ r < n.np, (groupWrote n p r ↔ b)) → Hangs n (closesP n sub p) W) := by
  constructor
  · rintro ⟨b, hb⟩
    have h0 := hok.1
    have hb' : ∀ r < n.np, n.hasMeta p (n.gc r) = n.hasMeta p (n.gc 0) := by
      intro r hr
      rw [Bool.eq_iff_iff, groupWrote_iff hok hr, groupWrote_iff hok h0, hb r hr, hb 0 h0]
    refine ⟨_, _, completes_of (close_ends hok p W hb'), fun c hc st st1 hs hf hn => ?_⟩
    have s1 := flush_sees hok hc hs hf
    have haddr : nextAddr (W c).addr st1 = (flushedW n p W c).next := by
      have : (flushedW n p W c).addr = (W c).addr := by
        unfold flushedW
        split <;> rfl
      rw [Store.next, this, ← s1.2.2.1, ← s1.2.2.2]
      rfl
    rw [haddr]
    have s2 := meta_sees hok hc s1
    have hw : ∀ r < n.np, ∀ q < n.np, n.gc r = .world → n.gc q = .world := fun r hr q hq h =>
      (hok.2 q hq).mpr ((hok.2 r hr).mp h)
    have hcw : ¬ (sub = true ∧ c = .world) := by
      rintro ⟨e1, e2⟩
      obtain ⟨r, hr, he⟩ := mem_comms.mp hc
      have := (hok.2 r hr).mp (he.trans e2)
      rw [e1] at this
      cases this
    have hW : closedW n sub (closed n p W) (closedF n p W) c =
        { closedF n p W c with saved := ((((n.mem c).map (fun r => CArg.mk [(closed n p W r).nmd] [])).getD 0 {}).num 0) } := by
      rw [closedW, if_neg hcw, attrW, Net.put, if_pos ⟨hc, rfl⟩]
      rfl
    refine ⟨?_, ?_⟩
    · obtain ⟨a1, a2, a3, a4⟩ := s2
      refine ⟨a1, ?_, ?_, ?_⟩
      · rw [hW]; exact a2
      · rw [hW]; exact a3
      · rw [hW]; exact a4
    · rw [hW]
      have hne := mem_comms_ne hok hc
      cases hm : n.mem c with
      | nil => exact absurd hm hne
      | cons r l =>
        have hrm : r ∈ n.mem c := hm ▸ List.mem_cons_self
        have hg : n.gc r = c := ((mem_gc hok hc).mp hrm).2
        have e1 : (flushed n p W r).nmd = st.mds.length := by
          have : (flushed n p W r).nmd = (p r).nmd := by
            unfold flushed
            split
            · split <;> rfl
            · rfl
          rw [this]
          exact hn r hrm
        have e2 : st1.mds = st.mds := by
          unfold FState.flush at hf
          split at hf
          · dsimp only at hf
            split at hf
            · cases hf; rfl
            · cases hf; rfl
          · cases hf
        have e3 : (mdSizes st1.ranks).sum = (mdSizes (n.ranks (flushed n p W) c)).sum := by rw [s1.1]
        have e4 : st1.ranks.length = n.len c := by rw [s1.1]; simp [Net.ranks, Net.len]
        show (metaed n (flushed n p W) r).nmd = _
        simp only [metaed, hg, e1, FState.metaflush, e4, e3, Net.hasMeta, decide_eq_true_eq]
        by_cases hx : 8 * (n.len c + 1) < (mdSizes (n.ranks (flushed n p W) c)).sum
        · simp only [if_pos hx, e2, List.length_append, List.length_singleton]
        · simp only [if_neg hx, e2, Nat.add_zero]
  · intro hx
    refine hangs_of ?_
    have : ∃ r1 < n.np, ∃ r2 < n.np, n.hasMeta p (n.gc r1) = true ∧ n.hasMeta p (n.gc r2) = false := by
      refine Decidable.byContradiction (fun hc => hx ?_)
      by_cases h : ∃ r < n.np, n.hasMeta p (n.gc r) = true
      · obtain ⟨r1, h1, hm1⟩ := h
        refine ⟨True, fun r hr => ?_⟩
        rw [← groupWrote_iff hok hr]
        cases hm : n.hasMeta p (n.gc r) with
        | true => simp
        | false => exact absurd ⟨r1, h1, r, hr, hm1, hm⟩ hc
      · refine ⟨False, fun r hr => ?_⟩
        rw [← groupWrote_iff hok hr]
        exact ⟨fun hm => h ⟨r, hr, hm⟩, False.elim⟩
    obtain ⟨r1, h1, r2, h2, hm1, hm2⟩ := this
    exact close_stuck hok p W h1 h2 hm1 hm2

/-- C61: without subfiling, the close completes. -/
theorem C61_close_one (hok : n.ok false) (p : Nat → Proc) (W : Comm → Store) :
    ∃ p' W', Completes n (closesP n false p) W p' W' := by
  obtain ⟨p', W', h, -⟩ := (C61_close_partial hok p W).1 ⟨groupWrote n p 0, fun r hr => by
    rw [← groupWrote_iff hok hr, ← groupWrote_iff hok hok.1, (hok.2 r hr).mpr rfl, (hok.2 0 hok.1).mpr rfl]⟩
  exact ⟨p', W', h⟩

/-! ### Read -/

/-- What all processes read (`none`: nothing is selected; `some b`: something is, and the log has data in it or not) allows the read
to complete; `d`: there is metadata to flush. -/
def readOK (n : Net) (o : COpt) (d : Bool) (sel : Nat → Option Bool) : Prop :=
  (∀ r < n.np, sel r = none) ∨ (∃ b, ∀ r < n.np, sel r = some b) ∨
    (o.pass = true ∧ ((∀ r < n.np, sel r ≠ none) ∨ (o.coll = false ∧ n.np ≠ 1 ∧ d = false)))

/-- C61: without subfiling, a blocking read by all processes completes if and only if all processes have an empty selection, or all
find something in the log, or all find nothing; in passthru mode, where the data is read by independent calls, also if all have
selected something, or if there is nothing to flush and the transfer mode is independent. Otherwise it hangs. -/
theorem C61_read_partial {o : COpt} (ho : o.sub = false) (hok : n.ok false) {d : Bool} (p : Nat → Proc) (W : Comm → Store)
    (hd : ∀ r < n.np, (p r).dirty = d) (sel : Nat → Option Bool) :
    (readOK n o d sel → ∃ p' W', Completes n (readsP n o sel p) W p' W') ∧
    (¬ readOK n o d sel → Hangs n (readsP n o sel p) W) := by
  constructor
  · rintro (h | ⟨b, hb⟩ | ⟨hp, h | ⟨hc, h1, hd0⟩⟩)
    · refine ⟨p, W, completes_of (Goes.congr (resp_ends _ _) (ends_ret _ _) (fun r hr => ?_))⟩
      rw [readsP, h r hr]
      rfl
    · exact ⟨_, _, completes_of (read_even ho hok p W hd hb)⟩
    · exact ⟨_, _, completes_of (read_pass ho hp hok p W hd h)⟩
    · subst hd0
      exact ⟨_, _, completes_of (read_free hp hc h1 p W hd)⟩
  · intro hx
    refine hangs_of ?_
    have hsome : ∃ r1 < n.np, ∃ b, sel r1 = some b := by
      refine Decidable.byContradiction (fun h => hx (.inl (fun r hr => ?_)))
      cases hs : sel r with
      | none => rfl
      | some b => exact absurd ⟨r, hr, b, hs⟩ h
    obtain ⟨r1, h1, b, hs1⟩ := hsome
    by_cases hn : ∃ r2 < n.np, sel r2 = none
    · obtain ⟨r2, h2, hs2⟩ := hn
      exact read_alone hok p W hd (fun ⟨a1, a2, a3, a4⟩ => hx (.inr (.inr ⟨a1, .inr ⟨a2, a3, a4⟩⟩))) h1 h2 hs1 hs2
    · have hall : ∀ r < n.np, sel r ≠ none := fun r hr h => hn ⟨r, hr, h⟩
      have hp : o.pass = false := by
        cases hp : o.pass with
        | false => rfl
        | true => exact absurd (.inr (.inr ⟨hp, .inl hall⟩)) hx
      have hdiff : ∃ r2 < n.np, sel r2 = some (!b) := by
        refine Decidable.byContradiction (fun h => hx (.inr (.inl ⟨b, fun r hr => ?_⟩)))
        cases hs : sel r with
        | none => exact absurd hs (hall r hr)
        | some b' =>
          by_cases e : b' = b
          · rw [e]
          · refine absurd ⟨r, hr, ?_⟩ h
            rw [hs]
            cases b <;> cases b' <;> simp_all
      obtain ⟨r2, h2, hs2⟩ := hdiff
      cases b with
      | true => exact read_stuck ho hp hok p W hd hall h1 h2 hs1 hs2
      | false => exact read_stuck ho hp hok p W hd hall h2 h1 hs2 hs1

/-! ### Whole runs -/

theorem world_mem (hok : n.ok false) : Comm.world ∈ n.comms := mem_comms.mpr ⟨0, hok.1, (hok.2 0 hok.1).mpr rfl⟩

theorem Spec.Joined.sees {st : FState} {p : Nat → Proc} {W : Comm → Store} (J : Joined n st p (W .world)) :
    n.Sees .world st p W := ⟨J.ranks, J.disk, J.lds, J.mds⟩

theorem joined_flush (hok : n.ok false) {st st' : FState} {p : Nat → Proc} {W : Comm → Store} (J : Joined n st p (W .world))
    (hf : st.flush (W .world).next = .ok st') : Joined n st' (flushed n p W) (flushedW n p W .world) := by
  have hs := flush_sees hok (world_mem hok) (Spec.Joined.sees J) hf
  have ht : n.total p .world = (st.ranks.map Rank.localSize).sum := by rw [total_eq, J.ranks]; rfl
  refine ⟨hs.1, hs.2.1, hs.2.2.1, hs.2.2.2, ?_, ?_, ?_⟩
  · have e1 : (flushedW n p W .world).saved = (W .world).saved := by
      unfold flushedW
      split <;> rfl
    have e2 : st'.saved = st.saved := by
      unfold FState.flush at hf
      split at hf
      · dsimp only at hf
        split at hf
        · cases hf; rfl
        · cases hf; rfl
      · cases hf
    rw [e1, e2, J.saved]
  · intro r hr
    rw [flushed_dirty, J.dirty r hr, ht]
    unfold FState.flush at hf
    split at hf
    · dsimp only at hf
      split at hf
      · rename_i h0
        cases hf
        rw [h0]
        simp
      · rename_i h0
        cases hf
        rw [decide_eq_true h0, Bool.or_true]
    · cases hf
  · intro r hr
    have e1 : (flushed n p W r).nmd = (p r).nmd := by
      unfold flushed
      split
      · split <;> rfl
      · rfl
    have e2 : st'.mds = st.mds := by
      unfold FState.flush at hf
      split at hf
      · dsimp only at hf
        split at hf
        · cases hf; rfl
        · cases hf; rfl
      · cases hf
    rw [e1, e2, J.nmd r hr]

theorem joined_meta (hok : n.ok false) {st : FState} {p : Nat → Proc} {W : Comm → Store} (J : Joined n st p (W .world)) :
    Joined n (st.metaflush (W .world).next) (metaed n p) (metaedW n p W .world) := by
  have hs := meta_sees hok (world_mem hok) (Spec.Joined.sees J)
  have hm : n.hasMeta p .world = true ↔ 8 * (st.ranks.length + 1) < (mdSizes st.ranks).sum := by
    have h1 : st.ranks = n.ranks p .world := J.ranks
    have h2 : st.ranks.length = n.len .world := by rw [h1]; simp [Net.ranks, Net.len]
    rw [Net.hasMeta, decide_eq_true_iff, h2, ← h1]
  refine ⟨hs.1, hs.2.1, hs.2.2.1, hs.2.2.2, ?_, fun r hr => rfl, ?_⟩
  · have e1 : (metaedW n p W .world).saved = (W .world).saved := by
      unfold metaedW
      split <;> rfl
    have e2 : (st.metaflush (W .world).next).saved = st.saved := by
      simp only [FState.metaflush]
      split <;> rfl
    rw [e1, e2, J.saved]
  · intro r hr
    have hg : n.gc r = .world := (hok.2 r hr).mpr rfl
    simp only [metaed, hg, J.nmd r hr, FState.metaflush]
    by_cases hx : 8 * (st.ranks.length + 1) < (mdSizes st.ranks).sum
    · simp only [if_pos hx, if_pos (hm.mpr hx), List.length_append, List.length_singleton]
    · simp only [if_neg hx, if_neg (fun y => hx (hm.mp y)), Nat.add_zero]

theorem joined_pend {st : FState} {p : Nat → Proc} {W : Comm → Store} (J : Joined n st p (W .world)) :
    n.pend p = st.anyPending := by
  rw [Net.pend, FState.anyPending, J.ranks, List.any_map]
  rfl

theorem joined_next {st : FState} {p : Nat → Proc} {W : Comm → Store} (J : Joined n st p (W .world)) :
    nextAddr (W .world).addr st = (W .world).next := by
  rw [nextAddr, Store.next, J.lds, J.mds]

theorem flushedW_addr (p : Nat → Proc) (W : Comm → Store) (c : Comm) : (flushedW n p W c).addr = (W c).addr := by
  unfold flushedW
  split <;> rfl

theorem metaedW_addr (p : Nat → Proc) (W : Comm → Store) (c : Comm) : (metaedW n p W c).addr = (W c).addr := by
  unfold metaedW
  split <;> rfl

theorem flush_fix {st st' : FState} {a : Nat} (hf : st.flush a = .ok st') : st'.cfg = st.cfg ∧ st'.dsets = st.dsets := by
  unfold FState.flush at hf
  split at hf
  · dsimp only at hf
    split at hf
    · cases hf
      exact ⟨rfl, rfl⟩
    · cases hf
      exact ⟨rfl, rfl⟩
  · cases hf

theorem bind_ret' {α : Type} (p : Prog α) : p.bind .ret = p := by
  induction p with
  | ret a => rfl
  | call c k a nx ih =>
    simp only [Prog.bind]
    congr 1
    funext x
    exact ih x

theorem res_bind_ok {α β : Type} {x : Res α} {f : α → Res β} {b : β} (h : (x >>= f) = .ok b) : ∃ a, x = .ok a ∧ f a = .ok b := by
  cases x with
  | ok a => exact ⟨a, rfl, h⟩
  | err => cases h
  | ub => cases h

/-- One operation: all processes together do what one step of the file does. -/
theorem op_ends {o : COpt} (ho : o.sub = false) (hok : n.ok false) {st st' : FState} {p : Nat → Proc} {W : Comm → Store}
    (J : Joined n st p (W .world)) {op : COp} (he : Even n.np op) (hf : collStep o.coll (W .world).addr op st = .ok st') :
    ∃ p' W', Ends n (fun r => opP o st.cfg st.dsets n r op (p r)) W p' W' ∧ Joined n st' p' (W' .world) ∧
      (W' .world).addr = (W .world).addr ∧ st'.cfg = st.cfg ∧ st'.dsets = st.dsets := by
  have hlen : st.ranks.length = n.np := by rw [J.ranks]; simp
  cases op with
  | write q did bs data =>
    have hq : q < n.np := he
    simp only [collStep, FState.write] at hf
    have hk : st.ranks[q]? = some (p q).k := by
      rw [J.ranks, List.getElem?_map, List.getElem?_range hq]
      rfl
    rw [hk] at hf
    split at hf
    · rename_i k d e1 e2
      cases e1
      obtain ⟨k', hw, hf⟩ := res_bind_ok hf
      cases hf
      refine ⟨fun r => if q = r then { p q with k := k' } else p r, W, ?_, ?_, rfl, rfl, rfl⟩
      · refine Goes.congr (resp_ends _ _) (ends_ret _ _) (fun r hr => ?_)
        by_cases e : q = r
        · subst e
          simp only [opP, if_true, e2, hw]
        · simp only [opP, if_neg e]
      · refine ⟨?_, J.disk, J.lds, J.mds, J.saved, fun r hr => ?_, fun r hr => ?_⟩
        · show st.ranks.set q k' = _
          rw [J.ranks]
          refine List.ext_getElem (by simp) (fun i h1 h2 => ?_)
          simp only [List.getElem_set, List.getElem_map, List.getElem_range]
          split <;> rfl
        · dsimp only
          split
          · exact J.dirty q hq
          · exact J.dirty r hr
        · dsimp only
          split
          · exact J.nmd q hq
          · exact J.nmd r hr
    · cases hf
  | flush =>
    simp only [collStep, FState.fileFlush, joined_next J] at hf
    have key := max_goes (α := Proc) (resp_ends (fun r => if n.pend p then flushed n p W r else p r)
      (if n.pend p then flushedW n p W else W)) hok p W (fun _ => Prog.ret) (ends_ret _ _)
    refine ⟨_, _, Goes.congr (resp_ends _ _) key (fun r hr => ?_), ?_⟩
    · rw [bind_ret']
      simp only [opP, ho]
    · rw [joined_pend J]
      cases hp : st.anyPending with
      | true =>
        rw [hp, if_pos rfl] at hf
        exact ⟨joined_flush hok J hf, flushedW_addr _ _ _, flush_fix hf⟩
      | false =>
        rw [hp] at hf
        cases hf
        exact ⟨J, rfl, rfl, rfl⟩
  | read sel =>
    rcases he with he | ⟨b, hb⟩
    · rw [collStep, if_pos (by rw [hlen]; exact he)] at hf
      cases hf
      refine ⟨p, W, Goes.congr (resp_ends _ _) (ends_ret _ _) (fun r hr => ?_), J, rfl, rfl, rfl⟩
      simp only [opP, he r hr]
      rfl
    · have hne : ¬ ∀ r < st.ranks.length, sel r = none := by
        intro h
        have := h 0 (by rw [hlen]; exact hok.1)
        rw [hb 0 hok.1] at this
        cases this
      rw [collStep, if_neg hne, joined_next J, hlen] at hf
      have hE := read_even (o := o) ho hok p W J.dirty hb
      refine ⟨_, _, hE, ?_⟩
      obtain ⟨st1, h1, h2⟩ := res_bind_ok hf
      cases h2
      have hp := joined_pend J
      have ht : n.total p .world = (st.ranks.map Rank.localSize).sum := by rw [total_eq, J.ranks]; rfl
      -- the flush
      have s1 : ∃ p1 W1, Joined n st1 p1 (W1 .world) ∧ (W1 .world).addr = (W .world).addr ∧ st1.cfg = st.cfg ∧ st1.dsets = st.dsets ∧
          prepP n o.coll st.metadirty p W = if st1.metadirty then (metaed n p1, metaedW n p1 W1) else (p1, W1) := by
        unfold prepP
        rw [hp]
        cases hx : ((o.coll || decide (n.np = 1)) && st.anyPending) with
        | true =>
          rw [hx, if_pos rfl] at h1
          refine ⟨_, _, joined_flush hok J h1, flushedW_addr _ _ _, (flush_fix h1).1, (flush_fix h1).2, ?_⟩
          have hd : st1.metadirty = (st.metadirty || decide (n.total p .world ≠ 0)) := by
            have j1 := (joined_flush hok J h1).dirty 0 hok.1
            rw [flushed_dirty, J.dirty 0 hok.1] at j1
            exact j1.symm
          rw [hd]
          simp only [if_true, Bool.true_and]
        | false =>
          rw [hx] at h1
          cases h1
          exact ⟨p, W, J, rfl, rfl, rfl, by simp⟩
      obtain ⟨p1, W1, J1, a1, c1, d1, e1⟩ := s1
      rw [e1]
      cases hm : st1.metadirty with
      | true =>
        simp only [if_true]
        refine ⟨?_, (metaedW_addr _ _ _).trans a1, ?_, ?_⟩
        · have := joined_meta hok J1
          rw [← joined_next J1, a1] at this
          exact this
        · rw [← c1]
          simp only [FState.metaflush]
          split <;> rfl
        · rw [← d1]
          simp only [FState.metaflush]
          split <;> rfl
      | false =>
        simp only [Bool.false_eq_true, if_false]
        exact ⟨J1, a1, c1, d1⟩

theorem ops_ends {o : COpt} (ho : o.sub = false) (hok : n.ok false) (cfg : Cfg) (dsets : DSets) (ops : List COp) :
    ∀ {st st' : FState} {p : Nat → Proc} {W : Comm → Store}, st.cfg = cfg → st.dsets = dsets →
    Joined n st p (W .world) → (∀ op ∈ ops, Even n.np op) → collRun o.coll (W .world).addr ops st = .ok st' →
    ∃ p' W', Ends n (fun r => opsP o cfg dsets n r ops (p r)) W p' W' ∧ Joined n st' p' (W' .world) ∧
      (W' .world).addr = (W .world).addr := by
  induction ops with
  | nil =>
    intro st st' p W _ _ J _ hf
    cases hf
    exact ⟨p, W, ends_ret _ _, J, rfl⟩
  | cons op ops ih =>
    intro st st' p W hc hd J he hf
    obtain ⟨st1, h1, h2⟩ := res_bind_ok hf
    obtain ⟨p1, W1, e1, J1, a1, c1, d1⟩ := op_ends ho hok J (he op List.mem_cons_self) h1
    rw [← a1] at h2
    obtain ⟨p2, W2, e2, J2, a2⟩ := ih (c1.trans hc) (d1.trans hd) J1 (fun x hx => he x (List.mem_cons_of_mem _ hx)) h2
    refine ⟨p2, W2, ?_, J2, a2.trans a1⟩
    rw [hc, hd] at e1
    exact Goes.bind (resp_ends _ _) (F := fun r => opsP o cfg dsets n r ops) e1 e2

/-- C61: without subfiling, a program of writes by single processes, flushes and reads by all (`Even`: those that complete) runs to
its end in every order of the processes. No two orders differ in the result, which is that of the same operations as single steps of
the file: so all that is proved about these steps holds for every order. Each process begins its operations as soon as it has ended
the one before; it does not wait for the others. -/
theorem C61_run_partial {o : COpt} (ho : o.sub = false) (hok : n.ok false) {st st' : FState} {p : Nat → Proc} {W : Comm → Store}
    (J : Joined n st p (W .world)) {ops : List COp} (he : ∀ op ∈ ops, Even n.np op)
    (hf : collRun o.coll (W .world).addr ops st = .ok st') :
    ∃ p' W', Completes n (fun r => opsP o st.cfg st.dsets n r ops (p r)) W p' W' ∧ Joined n st' p' (W' .world) := by
  obtain ⟨p', W', h, J', -⟩ := ops_ends ho hok st.cfg st.dsets ops rfl rfl J he hf
  exact ⟨p', W', completes_of h, J'⟩

/-- C61: the read of this model is that of the file as a whole, in which a read flushes what is queued and then the metadata. -/
theorem C61_prepare_partial (coll : Bool) (addr : Nat → Nat) (sel : Nat → Option Bool) (st : FState)
    (h : ∃ r < st.ranks.length, sel r ≠ none) :
    ∃ mdoff, collStep coll addr (.read sel) st = st.prepare coll (nextAddr addr st) mdoff := by
  obtain ⟨r, hr, hs⟩ := h
  rw [collStep, if_neg (fun hx => hs (hx r hr))]
  cases hf : (if (coll || decide (st.ranks.length = 1)) && st.anyPending then st.flush (nextAddr addr st) else .ok st : Res FState) with
  | ok st1 =>
    refine ⟨nextAddr addr st1, ?_⟩
    rw [FState.prepare, hf]
    rfl
  | err =>
    refine ⟨0, ?_⟩
    rw [FState.prepare, hf]
    rfl
  | ub =>
    refine ⟨0, ?_⟩
    rw [FState.prepare, hf]
    rfl

/-- C61: without subfiling, the close of all processes, in any order, is the close of the file as one step. -/
theorem C61_close_state (hok : n.ok false) {st st1 st' : FState} {p : Nat → Proc} {W : Comm → Store} (J : Joined n st p (W .world))
    (h1 : st.flush (nextAddr (W .world).addr st) = .ok st1)
    (hf : st.close (nextAddr (W .world).addr st) (nextAddr (W .world).addr st1) = .ok st') :
    ∃ p' W', Completes n (closesP n false p) W p' W' ∧ Joined n st' p' (W' .world) := by
  have hb : ∀ r < n.np, n.hasMeta p (n.gc r) = n.hasMeta p .world := fun r hr => by rw [(hok.2 r hr).mpr rfl]
  refine ⟨_, _, completes_of (close_ends hok p W hb), ?_⟩
  rw [FState.close, h1] at hf
  cases hf
  rw [joined_next J] at h1
  have J1 := joined_flush hok J h1
  have J2 := joined_meta hok J1
  rw [← joined_next J1, flushedW_addr] at J2
  have hW : closedW n false (closed n p W) (closedF n p W) .world =
      { closedF n p W .world with
        saved := ((((n.mem .world).map (fun r => CArg.mk [(closed n p W r).nmd] [])).getD 0 {}).num 0) } := by
    rw [closedW, if_neg (fun x => Bool.false_ne_true x.1), attrW, Net.put, if_pos ⟨world_mem hok, rfl⟩]
    rfl
  have hsaved : (((n.mem .world).map (fun r => CArg.mk [(closed n p W r).nmd] [])).getD 0 {}).num 0 =
      (st1.metaflush (nextAddr (W .world).addr st1)).mds.length := by
    have := J2.nmd 0 hok.1
    rw [← this, List.getD_eq_getElem?_getD, List.getElem?_map, mem_world, List.getElem?_range hok.1]
    rfl
  rw [hW, hsaved]
  exact ⟨J2.ranks, J2.disk, J2.lds, J2.mds, rfl, J2.dirty, J2.nmd⟩

/-! ### New files -/

/-- A file opened by `np` processes, without subfiling. -/
def oneNet (np : Nat) : Net := ⟨np, fun _ => .world⟩

theorem oneNet_ok {np : Nat} (h : 0 < np) : (oneNet np).ok false := ⟨h, fun _ _ => by simp [oneNet]⟩

/-- A process that has just opened a file. -/
def newProc : Proc := ⟨Rank.init, false, 0⟩

theorem joined_new (cfg : Cfg) (compact : Bool) (mbuf : Option Nat) (np : Nat) (disk : Mem) (addr : Nat → Nat) (d : DInfo) :
    Joined (oneNet np) ((FState.create cfg compact mbuf np disk).addDset d) (fun _ => newProc) ⟨disk, [], [], 0, addr⟩ := by
  refine ⟨?_, rfl, rfl, rfl, rfl, fun _ _ => rfl, fun _ _ => rfl⟩
  simp only [FState.create, FState.addDset, newProc, oneNet]
  exact (List.ext_getElem (by simp) (fun i h1 h2 => by simp))

/-! ### Cases -/

def cyD : DInfo := ⟨[8], [some 8], 1⟩

/-- Two processes write, one flushes nothing of its own, both read, one writes again. -/
def cyOps : List COp :=
  [.write 0 0 [⟨[0], [3]⟩] [1, 2, 3], .flush, .write 1 0 [⟨[2], [2]⟩] [4, 5], .read (fun _ => some true),
    .write 0 0 [⟨[6], [1]⟩] [6]]

/-- A case of `C61_run_partial` and `C61_close_state`: the data of the first flush and that of the read go to different places; after
the close the file has three log datasets and two metadata datasets. -/
example : ∃ st st' st1 st'' : FState, ∃ p : Nat → Proc, ∃ W : Comm → Store,
    Joined (oneNet 2) st p (W .world) ∧ (∀ op ∈ cyOps, Even 2 op) ∧ collRun true (W .world).addr cyOps st = .ok st' ∧
    st'.flush (nextAddr (W .world).addr st') = .ok st1 ∧
    st'.close (nextAddr (W .world).addr st') (nextAddr (W .world).addr st1) = .ok st'' ∧
    st''.lds = [⟨100, 3⟩, ⟨200, 2⟩, ⟨400, 1⟩] ∧ st''.mds.map Ext.addr = [300, 500] := by
  have h : okWith (fun st' : FState => okWith (fun st1 : FState => okWith (fun st'' : FState =>
      decide (st''.lds = [⟨100, 3⟩, ⟨200, 2⟩, ⟨400, 1⟩] ∧ st''.mds.map Ext.addr = [300, 500]))
      (st'.close (nextAddr (fun i => 100 * (i + 1)) st') (nextAddr (fun i => 100 * (i + 1)) st1)))
      (st'.flush (nextAddr (fun i => 100 * (i + 1)) st')))
      (collRun true (fun i => 100 * (i + 1)) cyOps ((FState.create ⟨false, false⟩ false none 2 (fun _ => 0)).addDset cyD)) = true := by
    decide +kernel
  obtain ⟨st', h1, h⟩ := okWith_iff h
  obtain ⟨st1, h2, h⟩ := okWith_iff h
  obtain ⟨st'', h3, h⟩ := okWith_iff h
  rw [decide_eq_true_eq] at h
  refine ⟨_, st', st1, st'', fun _ => newProc, fun _ => ⟨fun _ => 0, [], [], 0, fun i => 100 * (i + 1)⟩,
    joined_new ⟨false, false⟩ false none 2 (fun _ => 0) (fun i => 100 * (i + 1)) cyD, ?_, h1, h2, h3, h⟩
  intro op hop
  simp only [cyOps, List.mem_cons, List.not_mem_nil, or_false] at hop
  rcases hop with rfl | rfl | rfl | rfl | rfl
  · exact Nat.zero_lt_two
  · trivial
  · exact Nat.one_lt_two
  · exact .inr ⟨true, fun _ _ => rfl⟩
  · exact Nat.zero_lt_two

/-- Three processes in two groups. -/
def cyNet : Net := ⟨3, fun r => .group (r / 2)⟩

theorem cyNet_ok : cyNet.ok true := ⟨by decide, fun r _ => by simp [cyNet]⟩

/-- A process with one write. -/
def cyProc (x : Nat) : Proc := ⟨{ wreqs := [mkWReq ⟨false, false⟩ cyD 0 [⟨[x], [1]⟩] 0 [7]], nflushed := 0, mdsize := 0, hash := [] }, false, 0⟩

/-- A group as a file of its own. -/
def cyGroup (n : Net) (p : Nat → Proc) (c : Comm) : FState :=
  { FState.create ⟨false, false⟩ false none 0 (fun _ => 0) with ranks := n.ranks p c }

/-- A case of `C61_flush_partial` and of the first part of `C61_close_partial`: both groups have written something. -/
example : (∀ c ∈ cyNet.comms, cyNet.Sees c (cyGroup cyNet (fun r => if r = 1 then newProc else cyProc r) c)
      (fun r => if r = 1 then newProc else cyProc r) (fun _ => ⟨fun _ => 0, [], [], 0, fun i => 100 * (i + 1)⟩)) ∧
    (∀ c ∈ cyNet.comms, ∃ st', (cyGroup cyNet (fun r => if r = 1 then newProc else cyProc r) c).flush 100 = .ok st' ∧
      st'.lds = [⟨100, 1⟩]) ∧
    ∀ r < 3, groupWrote cyNet (fun r => if r = 1 then newProc else cyProc r) r := by
  refine ⟨fun c _ => ⟨rfl, rfl, rfl, rfl⟩, ?_, ?_⟩
  · have hc : cyNet.comms = [.group 0, .group 1] := by decide +kernel
    rw [hc]
    intro c hm
    have h : ∀ c ∈ [Comm.group 0, .group 1], okWith (fun st' : FState => decide (st'.lds = [⟨100, 1⟩]))
        ((cyGroup cyNet (fun r => if r = 1 then newProc else cyProc r) c).flush 100) = true := by decide +kernel
    obtain ⟨st', h1, h2⟩ := okWith_iff (h c hm)
    exact ⟨st', h1, of_decide_eq_true h2⟩
  · intro r hr
    have : r / 2 * 2 < 3 := by omega
    refine ⟨r / 2 * 2, this, ?_, ?_⟩
    · simp only [cyNet]
      congr 1
      omega
    · have : r / 2 * 2 ≠ 1 := by omega
      simp [this, cyProc]

/-! ### Where it goes wrong -/

/-- C61 fails: with two subfiles and a write by one process only, `H5Fclose` hangs. -/
theorem C61_close_violated : ∃ (n : Net) (p : Nat → Proc) (W : Comm → Store), n.ok true ∧ n.np = 2 ∧ Hangs n (closesP n true p) W := by
  refine ⟨⟨2, fun r => .group r⟩, fun r => if r = 0 then cyProc 0 else newProc, fun _ => ⟨fun _ => 0, [], [], 0, fun i => 100 * (i + 1)⟩,
    ⟨by decide, fun r _ => by simp⟩, rfl, ?_⟩
  refine (C61_close_partial ⟨by decide, fun r _ => by simp⟩ _ _).2 ?_
  rintro ⟨b, hb⟩
  have h0 : b := (hb 0 (by decide)).mp ⟨0, by decide, rfl, by simp [cyProc]⟩
  obtain ⟨q, hq, hg, hw⟩ := (hb 1 (by decide)).mpr h0
  have : q = 1 := by
    simp only [Comm.group.injEq] at hg
    exact hg
  subst this
  exact hw rfl

/-- C61 fails: whatever the transfer mode, a blocking read of a process hangs as soon as one other process does not read, or has
selected nothing (the case of a parallel program in which some processes have no share in a dataset); also an independent read,
which is not to wait for anybody. Not in passthru mode. -/
theorem C61_alone_violated {o : COpt} (ho : o.sub = false) (hp : o.pass = false) (hok : n.ok false) {d : Bool} (p : Nat → Proc)
    (W : Comm → Store) (hd : ∀ r < n.np, (p r).dirty = d) (sel : Nat → Option Bool)
    {r1 r2 : Nat} (h1 : r1 < n.np) (h2 : r2 < n.np) (hs1 : sel r1 ≠ none) (hs2 : sel r2 = none) :
    Hangs n (readsP n o sel p) W := by
  refine (C61_read_partial ho hok p W hd sel).2 ?_
  rintro (h | ⟨b, hb⟩ | ⟨hp', -⟩)
  · exact hs1 (h r1 h1)
  · rw [hb r2 h2] at hs2
    cases hs2
  · rw [hp] at hp'
    cases hp'

/-- A case of it: process 0 of two reads on its own, in independent mode. -/
example : Hangs (oneNet 2) (readsP (oneNet 2) ⟨false, false, false⟩ (fun r => if r = 0 then some true else none) (fun _ => newProc))
    (fun _ => ⟨fun _ => 0, [], [], 0, fun i => 100 * (i + 1)⟩) :=
  C61_alone_violated rfl rfl (oneNet_ok (by decide)) (d := false) _ _ (fun _ _ => rfl) _ (r1 := 0) (r2 := 1) (by decide) (by decide)
    (by decide) rfl

/-- C61 fails: after a flush, two processes read, each from a place of its own; there is data at the first place only. Process 0 finds
it and calls `MPI_File_set_view`, which is collective; process 1 finds nothing, and does not. The read hangs. -/
theorem C61_view_violated (enc share compact : Bool) :
    ∃ (st st1 s0 s1 : FState) (a : AFile) (raw0 raw1 : List Hit), Reach ⟨enc, share⟩ st a ∧ st.prepare fileMode 1000 2000 = .ok st1 ∧
      st1.search 0 0 [⟨0, cyD, [⟨[0], [4]⟩], 0⟩] = .ok (raw0, s0) ∧ st1.search 0 1 [⟨0, cyD, [⟨[4], [4]⟩], 0⟩] = .ok (raw1, s1) ∧
      ∀ p W, Joined (oneNet 2) st p (W .world) →
        Hangs (oneNet 2) (readsP (oneNet 2) ⟨false, false, fileMode⟩ (fun r => some (!(if r = 0 then raw0 else raw1).isEmpty)) p) W := by
  have h : ∀ enc share compact, okWith (fun s : FState × AFile => okWith (fun st1 : FState =>
      okWith (fun x : List Hit × FState => !x.1.isEmpty) (st1.search 0 0 [⟨0, cyD, [⟨[0], [4]⟩], 0⟩]) &&
      okWith (fun x : List Hit × FState => x.1.isEmpty) (st1.search 0 1 [⟨0, cyD, [⟨[4], [4]⟩], 0⟩])) (s.1.prepare fileMode 1000 2000))
      (script ⟨enc, share⟩ compact 2 [.dset cyD, .write 0 ⟨0, cyD, [⟨[0], [4]⟩], [1, 2, 3, 4]⟩, .flush 500]) = true := by
    decide +kernel
  obtain ⟨⟨st, a⟩, h1, h⟩ := okWith_iff (h enc share compact)
  obtain ⟨st1, h2, h⟩ := okWith_iff h
  rw [Bool.and_eq_true] at h
  obtain ⟨⟨raw0, s0⟩, h3, e0⟩ := okWith_iff h.1
  obtain ⟨⟨raw1, s1⟩, h4, e1⟩ := okWith_iff h.2
  refine ⟨st, st1, s0, s1, a, raw0, raw1, script_reach (by decide) (by decide) h1, h2, h3, h4, fun p W J => ?_⟩
  refine (C61_read_partial rfl (oneNet_ok (by decide)) p W J.dirty _).2 ?_
  rintro (h | ⟨b, hb⟩ | ⟨hp, -⟩)
  · cases h 0 (by decide)
  · have b0 := hb 0 (by decide)
    have b1 := hb 1 (by decide)
    simp only [if_true, Nat.one_ne_zero, if_false, Option.some.injEq] at b0 b1
    rw [e0] at b0
    rw [show raw1.isEmpty = true from e1] at b1
    rw [← b0] at b1
    cases b1
  · cases hp

end Verif.Props
