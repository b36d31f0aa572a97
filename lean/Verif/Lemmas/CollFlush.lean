import Verif.Lemmas.Coll
import Verif.Lemmas.FileInv

/-
The programs of the flushes, run by all processes.
-/

namespace Verif

variable {n : Net}

/-- Size of the data of a process. -/
def Proc.size (p : Proc) : Nat := p.k.localSize

/-- Data of all processes of a communicator. -/
def Net.total (n : Net) (p : Nat → Proc) (c : Comm) : Nat := ((n.mem c).map (fun r => (p r).size)).sum

/-- Data of the processes of the group before `r`. -/
def Net.before (n : Net) (p : Nat → Proc) (r : Nat) : Nat :=
  (((n.mem (n.gc r)).map (fun r => (p r).size)).take ((n.mem (n.gc r)).idxOf r)).sum

theorem mem_world : n.mem .world = List.range n.np := rfl

theorem put_pure {k : CKind} {act : Comm → Bool} {args : Nat → CArg} {W : Comm → Store}
    (h : ∀ l w, (perform k l w).1 = w) : n.put k act args W = W := by
  funext c
  simp only [Net.put, h, ite_self]

theorem world_pure {k : CKind} {args : List CArg} {W : Comm → Store}
    (h : ∀ l w, (perform k l w).1 = w) : (fun c => if c = .world then (perform k args (W .world)).1 else W c) = W := by
  funext c
  by_cases e : c = .world
  · rw [if_pos e, h, e]
  · rw [if_neg e]

/-- Part of `flushP` after the sizes are known. -/
def restP (g : Comm) (p : Proc) (all gsize goff : Nat) : Prog Proc :=
  if all ≠ 0 then
    if gsize ≠ 0 then
      Prog.call g .mkData { nums := [gsize] } fun doff =>
      .tell g .write { nums := [goff + numAt doff 0], data := p.k.pending.flatMap (fun r => r.data) } <|
      .tell g .closeD {} <|
      .ret { p with k := p.k.flushAt (goff + numAt doff 0), dirty := true }
    else .ret { p with k := p.k.setLocal, dirty := true }
  else .ret { p with k := p.k.setLocal }

/-- Processes after a data flush. -/
def flushed (n : Net) (p : Nat → Proc) (W : Comm → Store) (r : Nat) : Proc :=
  if n.total p .world ≠ 0 then
    if n.total p (n.gc r) ≠ 0 then
      { p r with k := (p r).k.flushAt (n.before p r + (W (n.gc r)).next), dirty := true }
    else { p r with k := (p r).k.setLocal, dirty := true }
  else { p r with k := (p r).k.setLocal }

/-- Files after a data flush. -/
def flushedW (n : Net) (p : Nat → Proc) (W : Comm → Store) (c : Comm) : Store :=
  if c ∈ n.comms ∧ n.total p c ≠ 0 then
    { W c with
      lds := (W c).lds ++ [⟨(W c).next, n.total p c⟩]
      disk := (n.mem c).foldl (fun d r => writeAt d (n.before p r + (W c).next) ((p r).k.pending.flatMap (fun q => q.data)))
        (W c).disk }
  else W c

theorem total_le {p : Nat → Proc} {c : Comm} (h : n.total p c ≠ 0) :
    n.total p .world ≠ 0 := by
  intro h0
  refine h (List.sum_eq_zero_iff_forall_eq_nat.mpr (fun x hx => ?_))
  obtain ⟨r, hr, rfl⟩ := List.mem_map.mp hx
  have h1 : r < n.np := mem_lt hr
  exact (List.sum_eq_zero_iff_forall_eq_nat.mp h0) _ (List.mem_map.mpr ⟨r, List.mem_range.mpr h1, rfl⟩)

theorem mem_comms_ne {sub : Bool} (hok : n.ok sub) {c : Comm} (hc : c ∈ n.comms) : n.mem c ≠ [] := by
  obtain ⟨r, hr, he⟩ := mem_comms.mp hc
  exact List.ne_nil_of_mem ((mem_gc hok hc).mpr ⟨hr, he⟩)

/-- A number that is the same for all processes of a group is that of the first. -/
theorem first_num {sub : Bool} (hok : n.ok sub) {c : Comm} (hc : c ∈ n.comms) (f : Comm → CArg) :
    ((n.mem c).map (fun r => f (n.gc r))).getD 0 {} = f c := by
  have hne := mem_comms_ne hok hc
  cases hm : n.mem c with
  | nil => exact absurd hm hne
  | cons r l =>
    have : n.gc r = c := ((mem_gc hok hc).mp (hm ▸ List.mem_cons_self)).2
    simp [this]

theorem foldl_map_mem {β γ δ : Type} (f : δ → γ → δ) (g : β → γ) (l : List β) (d : δ) :
    (l.map g).foldl f d = l.foldl (fun d b => f d (g b)) d := List.foldl_map

theorem rest_ends {sub : Bool} (hok : n.ok sub) (p : Nat → Proc) (W : Comm → Store) :
    Ends n (fun r => restP (n.gc r) (p r) (n.total p .world) (n.total p (n.gc r)) (n.before p r)) W
      (flushed n p W) (flushedW n p W) := by
  have hin : ∀ r < n.np, n.gc r ∈ n.comms := fun r hr => mem_comms.mpr ⟨r, hr, rfl⟩
  let act : Comm → Bool := fun c => decide (n.total p c ≠ 0)
  have hact : ∀ c, act c = true ↔ n.total p c ≠ 0 := fun c => decide_eq_true_iff
  have hall : ∀ r < n.np, act (n.gc r) = true → n.total p .world ≠ 0 :=
    fun r _ h => total_le ((hact _).mp h)
  let W1 : Comm → Store := n.put .mkData act (fun r => { nums := [n.total p (n.gc r)] }) W
  let off : Nat → Nat := fun r => n.before p r + (W (n.gc r)).next
  let wargs : Nat → CArg := fun r => { nums := [off r], data := (p r).k.pending.flatMap (fun r => r.data) }
  let fin : Nat → Proc := fun r => { p r with k := (p r).k.flushAt (off r), dirty := true }
  -- creation of the datasets
  refine Goes.groups (resp_ends _ _) hok act (k := .mkData) (args := fun r => { nums := [n.total p (n.gc r)] })
    (next := fun r doff => .tell (n.gc r) .write
      { nums := [n.before p r + numAt doff 0], data := (p r).k.pending.flatMap (fun r => r.data) } <|
      .tell (n.gc r) .closeD {} <| .ret { p r with k := (p r).k.flushAt (n.before p r + numAt doff 0), dirty := true })
    (Q := fun r => if act (n.gc r) then .tell (n.gc r) .write (wargs r) (.tell (n.gc r) .closeD {} (.ret (fin r)))
      else .ret (flushed n p W r)) ?_ ?_ ?_
  · intro r hr h
    simp only [restP, if_pos (hall r hr h), if_pos ((hact _).mp h)]
  · intro r hr
    by_cases h : act (n.gc r) = true
    · rw [if_pos h, if_pos h]
      rfl
    · rw [if_neg h, if_neg h]
      have h' : ¬ n.total p (n.gc r) ≠ 0 := fun x => h ((hact _).mpr x)
      simp only [restP, flushed, if_neg h']
      split <;> rfl
  -- the data
  refine Goes.groups (resp_ends _ _) hok act (k := .write) (args := wargs)
    (next := fun r _ => .tell (n.gc r) .closeD {} (.ret (fin r)))
    (Q := fun r => if act (n.gc r) then .tell (n.gc r) .closeD {} (.ret (fin r)) else .ret (flushed n p W r)) ?_ ?_ ?_
  · intro r hr h
    simp only [if_pos h, Prog.tell]
  · intro r hr
    by_cases h : act (n.gc r) = true
    · rw [if_pos h, if_pos h]
    · simp only [if_neg h]
  -- close
  refine Goes.groups (resp_ends _ _) hok act (k := .closeD) (args := fun _ => {}) (next := fun r _ => .ret (fin r))
    (Q := fun r => .ret (flushed n p W r)) ?_ ?_ ?_
  · intro r hr h
    simp only [if_pos h, Prog.tell]
  · intro r hr
    by_cases h : act (n.gc r) = true
    · rw [if_pos h]
      simp only [flushed, if_pos (hall r hr h), if_pos ((hact _).mp h), fin, off]
    · simp only [if_neg h]
  rw [put_pure (fun _ _ => rfl)]
  have eW : n.put .write act wargs (n.put .mkData act (fun r => { nums := [n.total p (n.gc r)] }) W) = flushedW n p W := by
    funext c
    simp only [Net.put, flushedW, hact]
    by_cases hc : c ∈ n.comms ∧ n.total p c ≠ 0
    · simp only [if_pos hc, perform, first_num hok hc.1 (fun c => { nums := [n.total p c] }), foldl_map_mem]
      congr 1
      refine foldl_congr_mem (fun d r hr => ?_)
      have : n.gc r = c := ((mem_gc hok hc.1).mp hr).2
      simp only [wargs, off, CArg.num, List.getD_cons_zero, this]
    · simp only [if_neg hc]
  rw [eW]
  exact ends_ret _ _

/-- All processes flush their data: every run ends like this. -/
theorem flush_ends {sub : Bool} (hok : n.ok sub) (p : Nat → Proc) (W : Comm → Store) :
    Ends n (fun r => flushP sub (n.gc r) (p r)) W (flushed n p W) (flushedW n p W) := by
  have hin : ∀ r < n.np, n.gc r ∈ n.comms := fun r hr => mem_comms.mpr ⟨r, hr, rfl⟩
  have hidx : ∀ r < n.np, (List.range n.np).idxOf r = r := by
    intro r hr
    have := (List.nodup_range (n := n.np)).idxOf_getElem r (by simpa using hr)
    simpa using this
  have hsum : ∀ c, (((n.mem c).map (fun r => CArg.mk [(p r).k.localSize] [])).map (CArg.num 0)).sum = n.total p c := by
    intro c
    rw [List.map_map]
    rfl
  have hscan : ∀ r, numAt (if (n.mem (n.gc r)).idxOf r = 0 then [] else
      [((((n.mem (n.gc r)).map (fun r => CArg.mk [(p r).k.localSize] [])).map (CArg.num 0)).take
        ((n.mem (n.gc r)).idxOf r)).sum]) 0 = n.before p r := by
    intro r
    rw [List.map_map]
    by_cases h : (n.mem (n.gc r)).idxOf r = 0
    · rw [if_pos h]
      simp [Net.before, h, numAt]
    · rw [if_neg h]
      rfl
  refine Goes.world (resp_ends _ _) hok.1 (k := .sum) (args := fun r => { nums := [(p r).k.localSize] }) (fun r _ => rfl) ?_
  rw [world_pure (fun _ _ => rfl)]
  refine Goes.world (resp_ends _ _) hok.1 (k := .exscan) (args := fun r => { nums := [(p r).k.localSize] }) (fun r _ => rfl) ?_
  rw [world_pure (fun _ _ => rfl)]
  have hall : ∀ r, numAt ((perform .sum ((List.range n.np).map (fun r => CArg.mk [(p r).k.localSize] [])) (W .world)).2 r) 0 =
      n.total p .world := fun r => hsum .world
  cases sub with
  | true =>
    refine Goes.groups (resp_ends _ _) hok (fun _ => true) (k := .sum) (args := fun r => { nums := [(p r).k.localSize] })
      (next := fun r gall => .call (n.gc r) .exscan { nums := [(p r).k.localSize] } fun goff =>
        restP (n.gc r) (p r) (n.total p .world) (numAt gall 0) (numAt goff 0))
      (Q := fun r => .call (n.gc r) .exscan { nums := [(p r).k.localSize] } fun goff =>
        restP (n.gc r) (p r) (n.total p .world) (n.total p (n.gc r)) (numAt goff 0)) ?_ ?_ ?_
    · intro r hr _
      rw [← hall r]
      rfl
    · intro r hr
      rw [if_pos rfl]
      have : numAt (n.res .sum (fun r => { nums := [(p r).k.localSize] }) W r) 0 = n.total p (n.gc r) := hsum (n.gc r)
      rw [this]
    rw [put_pure (fun _ _ => rfl)]
    refine Goes.groups (resp_ends _ _) hok (fun _ => true) (k := .exscan) (args := fun r => { nums := [(p r).k.localSize] })
      (next := fun r goff => restP (n.gc r) (p r) (n.total p .world) (n.total p (n.gc r)) (numAt goff 0))
      (fun r hr _ => rfl) (fun r hr => rfl) ?_
    rw [put_pure (fun _ _ => rfl)]
    refine (rest_ends hok p W).congr (resp_ends _ _) (fun r hr => ?_)
    rw [if_pos rfl]
    have : numAt (n.res .exscan (fun r => { nums := [(p r).k.localSize] }) W r) 0 = n.before p r := hscan r
    rw [this]
  | false =>
    refine (rest_ends hok p W).congr (resp_ends _ _) (fun r hr => ?_)
    have hw : n.gc r = .world := (hok.2 r hr).mpr rfl
    have h2 : numAt ((perform .exscan ((List.range n.np).map (fun r => CArg.mk [(p r).k.localSize] [])) (W .world)).2 r) 0 =
        n.before p r := by
      have := hscan r
      rw [hw, mem_world, hidx r hr] at this
      exact this
    have h1 := hall r
    rw [hw]
    show _ = restP (Comm.world) (p r) (numAt _ 0) (numAt _ 0) (numAt _ 0)
    rw [h1, h2]

end Verif
