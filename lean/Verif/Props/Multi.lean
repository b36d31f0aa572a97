import Verif.Model.Multi
import Verif.Props.Coll

/-
C64: operations on several datasets at once.
-/

namespace Verif.Props

open Verif
open _root_.Verif.Spec (AW AFile MayWrite Reach Completes Hangs)

/-! ### Writes -/

/-- The call for an abstract write. -/
def mcall (w : AW) : MWrite := ⟨true, w.did, w.bs, w.data⟩

/-- The writes, one call each. -/
def awrites (r : Nat) (ws : List AW) (a : AFile) : AFile := ws.foldl (fun a w => a.write r w) a

/-- Every write may be issued when its turn comes. -/
def MayAll (cfg : Cfg) (r : Nat) : List AW → AFile → Prop
  | [], _ => True
  | w :: ws, a => MayWrite cfg a r w ∧ MayAll cfg r ws (a.write r w)

theorem awrite_queue (r : Nat) (w : AW) (a : AFile) : (a.write r w).queue.length = a.queue.length := by
  simp [AFile.write]

theorem multi_prefix {cfg : Cfg} {r : Nat} (ws : List AW) (rest : List MWrite) : ∀ {st : FState} {a : AFile}, Reach cfg st a →
    r < a.queue.length → MayAll cfg r ws a →
    ∃ st', Reach cfg st' (awrites r ws a) ∧ multiWrite r (ws.map mcall ++ rest) st = multiWrite r rest st' := by
  induction ws with
  | nil => intro st a h _ _; exact ⟨st, h, rfl⟩
  | cons w ws ih =>
    intro st a h hr hm
    obtain ⟨st1, e, -, -, -, -, -, h1⟩ := reach_write h hm.1 hr
    obtain ⟨st', h2, e2⟩ := ih h1 (by rw [awrite_queue]; exact hr) hm.2
    refine ⟨st', h2, ?_⟩
    simp only [List.map_cons, List.cons_append, multiWrite, mcall, if_true, e]
    exact e2

/-- C64, partial: a write to any number of datasets at once succeeds if each of the writes may be issued, and leaves the file as one
call for each dataset does. -/
theorem C64_write_partial {cfg : Cfg} {st : FState} {a : AFile} (h : Reach cfg st a) {r : Nat} (hr : r < a.queue.length)
    (ws : List AW) (hm : MayAll cfg r ws a) :
    ∃ st', multiWrite r (ws.map mcall) st = .ret st' ∧ Reach cfg st' (awrites r ws a) := by
  obtain ⟨st', h1, e⟩ := multi_prefix ws [] h hr hm
  rw [List.append_nil] at e
  exact ⟨st', e, h1⟩

/-- C64 is violated: whenever one of the writes fails, no error is returned: an exception is thrown into the library; and the
writes to the datasets before it stay queued. For every number of datasets and every position. -/
theorem C64_error_violated {cfg : Cfg} {st : FState} {a : AFile} (h : Reach cfg st a) {r : Nat} (hr : r < a.queue.length)
    (ws : List AW) (hm : MayAll cfg r ws a) (x : MWrite) (hx : x.ok = false) (rest : List MWrite) :
    ∃ st', multiWrite r (ws.map mcall ++ x :: rest) st = .exn st' ∧ Reach cfg st' (awrites r ws a) := by
  obtain ⟨st', h1, e⟩ := multi_prefix ws (x :: rest) h hr hm
  refine ⟨st', ?_, h1⟩
  rw [e]
  simp [multiWrite, hx]

/-- A case: two writes to a new file. -/
example (cfg : Cfg) (compact : Bool) (mbuf : Option Nat) :
    Reach cfg ((FState.create cfg compact mbuf 2 (fun _ => 0)).addDset fxD) ((AFile.create 2).addDset fxD) ∧
      0 < ((AFile.create 2).addDset fxD).queue.length ∧ MayAll cfg 0 [fxA, fxA] ((AFile.create 2).addDset fxD) := by
  refine ⟨Reach.addDset fxD (Reach.create compact mbuf 2 _ (by decide) (by decide)), by decide, ?_, ?_, trivial⟩
  · exact mayWrite_of (fxA_ok cfg) rfl (p := []) (q := []) rfl rfl (by decide) (by simp)
  · exact mayWrite_of (fxA_ok cfg) rfl (p := []) (q := [fxA]) rfl rfl (by decide) (by simp)

/-! ### Reads by several processes -/

variable {n : Net}

/-- What decides about the collective calls of a read: whether something is selected and, unless the data is read by
independent calls, whether it meets anything in the log. -/
def readKeys (pass : Bool) (l : List (Option Bool)) : List Bool := l.filterMap fun s => s.map fun b => pass || b

theorem multi_keys (o : COpt) (r : Nat) (l : List (Option Bool)) : ∀ p : Proc,
    multiReadP o n r l p = multiReadP o n r ((readKeys o.pass l).map some) p := by
  induction l with
  | nil => intro p; rfl
  | cons s l ih =>
    intro p
    have ih' : multiReadP o n r l = multiReadP o n r ((readKeys o.pass l).map some) := funext ih
    cases s with
    | none => exact ih p
    | some b =>
      simp only [readKeys, List.filterMap_cons, Option.map_some, List.map_cons, multiReadP]
      rw [ih', readP_some, readP_some]
      have : fetchP o.pass b (n.gc r) = fetchP o.pass (o.pass || b) (n.gc r) := by
        funext p
        cases hp : o.pass with
        | true => rfl
        | false => rw [Bool.false_or]
      rw [this]
      rfl

theorem prep_dirty (coll d : Bool) (p : Nat → Proc) (W : Comm → Store) (hd : ∀ r < n.np, (p r).dirty = d) :
    ∃ d', ∀ r < n.np, ((prepP n coll d p W).1 r).dirty = d' := by
  unfold prepP
  dsimp only
  split
  · exact ⟨false, fun r _ => rfl⟩
  · split
    · exact ⟨d || decide (n.total p .world ≠ 0), fun r hr => by rw [flushed_dirty, hd r hr]⟩
    · exact ⟨d, hd⟩

theorem multi_even {o : COpt} (ho : o.sub = false) (hok : n.ok false) (l : List Bool) :
    ∀ (L : Nat → List Bool) (p : Nat → Proc) (W : Comm → Store) (d : Bool), (∀ r < n.np, (p r).dirty = d) →
      (∀ r < n.np, L r = l) → ∃ p' W', Ends n (fun r => multiReadP o n r ((L r).map some) (p r)) W p' W' := by
  induction l with
  | nil =>
    intro L p W d _ hL
    exact ⟨p, W, Goes.congr (resp_ends _ _) (ends_ret _ _) (fun r hr => by rw [hL r hr]; rfl)⟩
  | cons b l ih =>
    intro L p W d hd hL
    obtain ⟨d', hd'⟩ := prep_dirty o.coll d p W hd
    obtain ⟨p', W', h⟩ := ih (fun _ => l) _ (prepP n o.coll d p W).2 d' hd' (fun _ _ => rfl)
    refine ⟨p', W', Goes.congr (resp_ends _ _) (Goes.bind (resp_ends _ _) (F := fun r => multiReadP o n r (l.map some))
      (read_even ho hok (sel := fun _ => some b) p W hd (fun _ _ => rfl)) h) (fun r hr => ?_)⟩
    rw [hL r hr]
    rfl

/-- A process that reads something is at a collective call of all processes. -/
theorem multi_at {o : COpt} (hok : n.ok false) {p : Nat → Proc} {d : Bool} (hd : ∀ r < n.np, (p r).dirty = d)
    (hx : ¬ (o.pass = true ∧ o.coll = false ∧ n.np ≠ 1)) {r : Nat} (hr : r < n.np) (b : Bool) (l : List (Option Bool)) :
    ∃ k, (multiReadP o n r (some b :: l) (p r)).at .world k := by
  have hw : n.gc r = .world := (hok.2 r hr).mpr rfl
  rw [multiReadP, readP_some, beforeP]
  cases hc : (o.coll || decide (n.np = 1)) with
  | true => exact ⟨.max, rfl, rfl⟩
  | false =>
    simp only [Bool.false_eq_true, if_false, Prog.bind, hd r hr]
    cases d with
    | true => exact ⟨.gather, hw, rfl⟩
    | false =>
      simp only [Bool.or_eq_false_iff, decide_eq_false_iff_not] at hc
      have hp : o.pass = false := by
        cases hp : o.pass with
        | false => rfl
        | true => exact absurd ⟨hp, hc.1, hc.2⟩ hx
      simp only [Bool.false_eq_true, if_false, Prog.bind, fetchP, hp]
      cases b with
      | true => exact ⟨.setView, hw, rfl⟩
      | false => exact ⟨.read, hw, rfl⟩

theorem multi_alone {o : COpt} (hok : n.ok false) (p : Nat → Proc) (W : Comm → Store) {d : Bool} (hd : ∀ r < n.np, (p r).dirty = d)
    (hx : ¬ (o.pass = true ∧ o.coll = false ∧ n.np ≠ 1)) (L : Nat → List Bool) {r1 r2 : Nat} (h1 : r1 < n.np) (h2 : r2 < n.np)
    (e1 : L r1 ≠ []) (e2 : L r2 = []) : Goes n (Sys.stuck n) (fun r => multiReadP o n r ((L r).map some) (p r)) W := by
  have hat : ∀ r < n.np, L r ≠ [] → ∃ k, (multiReadP o n r ((L r).map some) (p r)).at .world k := by
    intro r hr hne
    cases hl : L r with
    | nil => exact absurd hl hne
    | cons b t => exact multi_at hok hd hx hr b (t.map some)
  obtain ⟨k1, hk1⟩ := hat r1 h1 e1
  refine Goes.here (stuck_world (k1 := k1) h1 h2 (fun r hr => ?_) hk1 ?_)
  · by_cases he : L r = []
    · exact .inl ⟨p r, by rw [he]; rfl⟩
    · exact .inr (hat r hr he)
  · rw [e2]
    exact fun h => h

theorem multi_stuck {o : COpt} (ho : o.sub = false) (hok : n.ok false) (hx : ¬ (o.pass = true ∧ o.coll = false ∧ n.np ≠ 1))
    (l : List Bool) : ∀ (L : Nat → List Bool) (p : Nat → Proc) (W : Comm → Store) (d : Bool), (∀ r < n.np, (p r).dirty = d) →
      (o.pass = true → ∀ r < n.np, ∀ b ∈ L r, b = true) →
      L 0 = l → (¬ ∀ r < n.np, L r = l) → Goes n (Sys.stuck n) (fun r => multiReadP o n r ((L r).map some) (p r)) W := by
  induction l with
  | nil =>
    intro L p W d hd _ h0 hne
    obtain ⟨r1, h1, e1⟩ : ∃ r1 < n.np, L r1 ≠ [] := by
      refine Decidable.byContradiction (fun h => hne (fun r hr => ?_))
      exact Decidable.byContradiction (fun he => h ⟨r, hr, he⟩)
    exact multi_alone hok p W hd hx L h1 hok.1 e1 h0
  | cons b l ih =>
    intro L p W d hd hpass h0 hne
    by_cases hemp : ∃ r2 < n.np, L r2 = []
    · obtain ⟨r2, h2, e2⟩ := hemp
      exact multi_alone hok p W hd hx L hok.1 h2 (by rw [h0]; simp) e2
    · have hcons : ∀ r < n.np, L r = (L r).headD false :: (L r).tail := by
        intro r hr
        cases hl : L r with
        | nil => exact absurd ⟨r, hr, hl⟩ hemp
        | cons c t => rfl
      by_cases hheads : ∀ r < n.np, (L r).headD false = b
      · obtain ⟨d', hd'⟩ := prep_dirty o.coll d p W hd
        have := ih (fun r => (L r).tail) _ (prepP n o.coll d p W).2 d' hd'
          (fun hp r hr c hc => hpass hp r hr c (List.mem_of_mem_tail hc)) (by rw [h0]; rfl) (fun hall => hne (fun r hr => by
            rw [hcons r hr, hheads r hr, hall r hr]))
        refine Goes.congr resp_stuck (Goes.bind resp_stuck (F := fun r => multiReadP o n r ((L r).tail.map some))
          (read_even ho hok (sel := fun _ => some b) p W hd (fun _ _ => rfl)) this) (fun r hr => ?_)
        conv_rhs => rw [hcons r hr, hheads r hr]
        rfl
      · -- Heads differ: one process sets the view, another reads at once.
        have hp : o.pass = false := by
          cases hp : o.pass with
          | false => rfl
          | true =>
            refine absurd (fun r hr => ?_) hheads
            have hmem : ∀ r < n.np, (L r).headD false ∈ L r := by
              intro r hr
              rw [hcons r hr]
              exact List.mem_cons_self
            rw [hpass hp r hr _ (hmem r hr)]
            have := hpass hp 0 hok.1 _ (hmem 0 hok.1)
            rw [h0] at this
            exact this.symm
        obtain ⟨r2, h2, e2⟩ : ∃ r2 < n.np, (L r2).headD false ≠ b := by
          refine Decidable.byContradiction (fun h => hheads (fun r hr => ?_))
          exact Decidable.byContradiction (fun he => h ⟨r, hr, he⟩)
        have hw : ∀ r < n.np, n.gc r = .world := fun r hr => (hok.2 r hr).mpr rfl
        have hb0 : (L 0).headD false = b := by rw [h0]; rfl
        have hat : ∀ r < n.np, ∀ q : Proc, ((fetchP o.pass ((L r).headD false) (n.gc r) q).bind
            (multiReadP o n r ((L r).tail.map some))).at .world (if (L r).headD false then .setView else .read) := by
          intro r hr q
          rw [hp, hw r hr]
          cases (L r).headD false
          · exact ⟨rfl, rfl⟩
          · exact ⟨rfl, rfl⟩
        refine Goes.congr resp_stuck (before_goes resp_stuck ho hok p W (fun r q => (fetchP o.pass ((L r).headD false) (n.gc r) q).bind
            (multiReadP o n r ((L r).tail.map some))) hd ?_) (fun r hr => ?_)
        · refine Goes.here (stuck_world (k1 := if b then .setView else .read) hok.1 h2 (fun r hr => .inr ⟨_, hat r hr _⟩) ?_ ?_)
          · have h3 := hat 0 hok.1 ((prepP n o.coll d p W).1 0)
            have e : (if (L 0).headD false then CKind.setView else CKind.read) = if b then .setView else .read := by rw [hb0]
            rw [e] at h3
            exact h3
          · intro h4
            have h5 := (Prog.at_inj h4 (hat r2 h2 _)).2
            generalize (L r2).headD false = c at e2 h5
            cases b <;> cases c
            · exact e2 rfl
            · exact absurd h5 (by decide)
            · exact absurd h5 (by decide)
            · exact e2 rfl
        · conv_rhs => rw [hcons r hr]
          rw [List.map_cons, multiReadP, readP_some, bind_assoc']

/-- C64, exactly: without subfiling, a read of several datasets by all processes completes if and only if all processes have the same
sequence of reads that find something and reads that find nothing, leaving out datasets of which nothing is selected; otherwise it
hangs, whatever the order of the processes. The datasets need not be the same, nor their number. In passthru mode only the number
of datasets of which something is selected counts. -/
theorem C64_read_partial {o : COpt} (ho : o.sub = false) (hok : n.ok false) (hx : ¬ (o.pass = true ∧ o.coll = false ∧ n.np ≠ 1))
    {d : Bool} (p : Nat → Proc) (W : Comm → Store) (hd : ∀ r < n.np, (p r).dirty = d) (sels : Nat → List (Option Bool)) :
    ((∃ l, ∀ r < n.np, readKeys o.pass (sels r) = l) → ∃ p' W', Completes n (fun r => multiReadP o n r (sels r) (p r)) W p' W') ∧
    ((¬ ∃ l, ∀ r < n.np, readKeys o.pass (sels r) = l) → Hangs n (fun r => multiReadP o n r (sels r) (p r)) W) := by
  constructor
  · rintro ⟨l, hl⟩
    obtain ⟨p', W', h⟩ := multi_even ho hok l (fun r => readKeys o.pass (sels r)) p W d hd hl
    exact ⟨p', W', completes_of (Goes.congr (resp_ends _ _) h (fun r _ => (multi_keys o r (sels r) (p r)).symm))⟩
  · intro hne
    refine hangs_of (Goes.congr resp_stuck (multi_stuck ho hok hx _ (fun r => readKeys o.pass (sels r)) p W d hd ?_ rfl
      (fun h => hne ⟨_, h⟩)) (fun r _ => (multi_keys o r (sels r) (p r)).symm))
    intro hp r hr b hb
    simp only [readKeys, List.mem_filterMap, Option.map_eq_some_iff] at hb
    obtain ⟨s, -, c, -, rfl⟩ := hb
    rw [hp]
    rfl

/-- C64 is violated: a collective read hangs as soon as one process reads more datasets than another, although each may take part with
datasets of its own choice. -/
theorem C64_count_violated {o : COpt} (ho : o.sub = false) (hok : n.ok false) (hx : ¬ (o.pass = true ∧ o.coll = false ∧ n.np ≠ 1))
    {d : Bool} (p : Nat → Proc) (W : Comm → Store) (hd : ∀ r < n.np, (p r).dirty = d) (sels : Nat → List Bool)
    {r1 r2 : Nat} (h1 : r1 < n.np) (h2 : r2 < n.np) (hc : (sels r1).length ≠ (sels r2).length) :
    Hangs n (fun r => multiReadP o n r ((sels r).map some) (p r)) W := by
  refine (C64_read_partial ho hok hx p W hd (fun r => (sels r).map some)).2 ?_
  rintro ⟨l, hl⟩
  have e : ∀ s : List Bool, (readKeys o.pass (s.map some)).length = s.length := by
    intro s
    induction s with
    | nil => rfl
    | cons b s ih => simp only [readKeys, List.map_cons, List.filterMap_cons, Option.map_some, List.length_cons] at ih ⊢; rw [ih]
  exact hc (by rw [← e (sels r1), ← e (sels r2), hl r1 h1, hl r2 h2])

example : Hangs (oneNet 2) (fun r => multiReadP ⟨false, false, true⟩ (oneNet 2) r ((if r = 0 then [true, true] else [true]).map some) newProc)
    (fun _ => ⟨fun _ => 0, [], [], 0, fun i => 100 * (i + 1)⟩) :=
  C64_count_violated rfl (oneNet_ok (by decide)) (by decide) (d := false) (fun _ => newProc) _ (fun _ _ => rfl)
    (fun r => if r = 0 then [true, true] else [true]) (r1 := 0) (r2 := 1) (by decide) (by decide) (by decide)

/-- Different datasets on the processes are fine if the reads match. -/
example : ∃ p' W', Completes (oneNet 2) (fun r => multiReadP ⟨false, false, true⟩ (oneNet 2) r
      (if r = 0 then [some true, none, some false] else [some true, some false]) newProc)
    (fun _ => ⟨fun _ => 0, [], [], 0, fun i => 100 * (i + 1)⟩) p' W' :=
  (C64_read_partial rfl (oneNet_ok (by decide)) (by decide) (d := false) (fun _ => newProc) _ (fun _ _ => rfl)
    (fun r => if r = 0 then [some true, none, some false] else [some true, some false])).1
    ⟨[true, false], fun r hr => by
      have : r = 0 ∨ r = 1 := by simp only [oneNet] at hr; omega
      rcases this with rfl | rfl <;> decide⟩

end Verif.Props
