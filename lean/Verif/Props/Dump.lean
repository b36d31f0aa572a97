import Verif.Lemmas.Dump
import Verif.Lemmas.SecsPerm
import Verif.Props.Replay

/-
C71: h5ldump prints every write.
-/

namespace Verif.Props

open _root_.Verif.Spec (AW AFile Fresh Small Reach Printed Lists SameSel)

/-- **C71, partial.** After any history, in any configuration, with and without data: h5ldump of the closed file succeeds,
whatever its memory contained, and prints one entry for every write, in the order of the metadata, with the dataset, the blocks
and the data of the write. Conditions: the written datasets are present under names that h5ldump does not skip; the data of
every write has one element per recorded cell (see `C71_rows_violated`); with shared metadata, writes of several blocks with
equal selections have equal element sizes. -/
theorem C71_dump_partial (cfg : Cfg) {st : FState} {a : AFile} (h : Reach cfg st a) {doff mdoff : Nat} (hf : Fresh st doff)
    (hf' : Fresh st mdoff) (hd : doff + Spec.queued a ≤ mdoff) {objs : List VObj} (hobj : Lists objs a.dsets)
    (hpr : ∀ w ∈ a.done ++ a.queue.flatten, ∃ d, a.dsets[w.did]? = some (some d))
    (hex : ∀ w ∈ a.done ++ a.queue.flatten, w.Exact)
    (hsz : cfg.share = true → ∀ p ∈ a.flush.metaflush.secs, p.Pairwise (fun x y => SameSel x y →
      x.d.esize = y.d.esize ∨ y.bs.length = 1)) :
    ∃ stc, st.close doff mdoff = .ok stc ∧ (Small stc → ∀ withData junk, ∃ out, stc.dump objs withData junk = .ok out ∧
      List.Forall₂ (Printed withData) a.flush.metaflush.secs.flatten out.flatten.flatten ∧
      a.flush.metaflush.secs.flatten.Perm (a.done ++ a.queue.flatten)) := by
  obtain ⟨stc, h1, h2, h3⟩ := closed_inv h hf hf' hd
  refine ⟨stc, h1, fun hs wd junk => ?_⟩
  obtain ⟨g, inv⟩ := h3 hs
  have hpm := Inv.secs_perm inv (flush_epoch a)
  obtain ⟨out, o1, o2⟩ := inv.dump h2 (objs := objs) (by rw [inv.dsets]; exact hobj)
    (fun w hw => by rw [inv.dsets]; exact hpr w (hpm.mem_iff.mp hw)) hsz
    (fun w hw => hex w (hpm.mem_iff.mp hw)) wd junk
  refine ⟨out, o1, ?_, hpm⟩
  have o3 := forall₂_flatten (forall₂_flatten o2)
  rw [← inv.ord.2, ← List.map_flatten, List.forall₂_map_left_iff]
  exact o3

/-! ### Cases -/

def dpObjs : List VObj := [⟨".".toList, none⟩, ⟨"_LOG".toList, none⟩, ⟨"_LOG/_md_0".toList, some none⟩,
  ⟨"d".toList, some (some (0, ryD))⟩]

theorem dp_lists : Lists dpObjs [some ryD] := by
  constructor
  · intro i d hi
    rcases i with _ | i
    · simp only [List.getElem?_cons_zero, Option.some.injEq] at hi
      subst hi
      exact ⟨⟨"d".toList, some (some (0, ryD))⟩, by simp [dpObjs], by decide +kernel, rfl⟩
    · simp at hi
  · intro o ho hs x hx
    simp only [dpObjs, List.mem_cons, List.not_mem_nil, or_false] at ho
    rcases ho with rfl | rfl | rfl | rfl
    · simp at hx
    · simp at hx
    · exact absurd hs (by decide +kernel)
    · simp only [Option.some.injEq] at hx
      exact ⟨0, ryD, hx.symm, rfl⟩

/-- The hypotheses of `C71_dump_partial` are met by a history with two epochs: five entries are printed. -/
example (enc share compact : Bool) : ∃ st a stc, Reach ⟨enc, share⟩ st a ∧ st.close 5000 6000 = .ok stc ∧
    ∀ withData junk, ∃ out, stc.dump dpObjs withData junk = .ok out ∧ List.Forall₂ (Printed withData)
      [ryW 0 1, ryW 0 3, ryW 2 2, ryW 2 4, ryW 1 5] out.flatten.flatten := by
  have h : ∀ enc share compact, okWith (fun s => okWith (fun stc => freshB s.1 5000 && freshB s.1 6000 && smallB stc &&
      decide (s.2.dsets = [some ryD] ∧ s.2.done = [ryW 0 1, ryW 0 3, ryW 2 2, ryW 2 4] ∧ s.2.queue = [[ryW 1 5], []] ∧
        s.2.flush.metaflush.secs = [[(0, 1), (0, 3)], [(2, 2), (2, 4)], [(1, 5)], []].map (fun p => p.map (fun w => ryW w.1 w.2))))
      (s.1.close 5000 6000)) (script ⟨enc, share⟩ compact 2 ryOps) = true := by decide +kernel
  obtain ⟨⟨st, a⟩, h1, h2⟩ := okWith_iff (h enc share compact)
  obtain ⟨stc, h3, h4⟩ := okWith_iff h2
  simp only [Bool.and_eq_true, decide_eq_true_eq] at h4
  obtain ⟨⟨⟨a1, a2⟩, a3⟩, a5, a6, a7, a8⟩ := h4
  have hr := script_reach (by decide) (by decide) h1
  have hq : Spec.queued a = 1 := by unfold Spec.queued; rw [a7]; rfl
  obtain ⟨stc', e1, e2⟩ := C71_dump_partial _ hr (freshB_iff.mp a1) (freshB_iff.mp a2) (by rw [hq]; decide)
    (objs := dpObjs) (by rw [a5]; exact dp_lists)
    (by
      intro w hw
      rw [a6, a7] at hw
      simp only [List.mem_append, List.mem_cons, List.flatten_cons, List.flatten_nil, List.not_mem_nil, or_false] at hw
      refine ⟨ryD, ?_⟩
      rw [a5]
      rcases hw with (rfl | rfl | rfl | rfl) | rfl
      all_goals rfl)
    (by
      intro w hw
      rw [a6, a7] at hw
      simp only [List.mem_append, List.mem_cons, List.flatten_cons, List.flatten_nil, List.not_mem_nil, or_false] at hw
      rcases hw with (rfl | rfl | rfl | rfl) | rfl
      all_goals rfl)
    (by
      intro _ p hp
      rw [a8] at hp
      refine List.Pairwise.imp_of_mem (R := fun _ _ => True) ?_ (List.pairwise_of_forall (fun _ _ => trivial))
      intro x y _ hy _ _
      simp only [List.mem_map] at hp
      obtain ⟨q, _, rfl⟩ := hp
      obtain ⟨v, _, rfl⟩ := List.mem_map.mp hy
      exact .inr rfl)
  have e3 : stc' = stc := by
    have := e1.symm.trans h3
    simpa using this
  rw [e3] at e2
  refine ⟨st, a, stc, hr, h3, fun wd junk => ?_⟩
  obtain ⟨out, o1, o2, _⟩ := e2 (smallB_iff.mp a3) wd junk
  refine ⟨out, o1, ?_⟩
  rw [a8] at o2
  exact o2

/-! ### Failures -/

def dpD1 : DInfo := ⟨[4], [some 4], 1⟩
def dpD8 : DInfo := ⟨[4], [some 4], 2⟩
def dpBs : List Blk := [⟨[0], [1]⟩, ⟨[2], [1]⟩]

/-- Two blocks of a dataset of bytes, then the same blocks of a dataset of 2-byte elements. -/
def dpW1 : AW := ⟨0, dpD1, dpBs, [1, 2]⟩
def dpW2 : AW := ⟨1, dpD8, dpBs, [3, 4, 5, 6]⟩

theorem dp_ok {d : DInfo} {did : Nat} {data : List Byte} (hd : d = dpD1 ∨ d = dpD8) (hl : data.length = d.esize * 2)
    (hi : did < 2) : Spec.WriteOK ⟨false, true⟩ ⟨did, d, dpBs, data⟩ := by
  have hn : d.ndim = 1 := by rcases hd with rfl | rfl <;> rfl
  have he : 0 < d.esize ∧ d.esize ≤ 2 := by rcases hd with rfl | rfl <;> decide
  refine ⟨AW.Exact.sized (by simpa [AW.Exact, dpBs, Blk.size, prod] using hl), ?_, by simp only; omega, by simp only; omega, ?_, ?_, by simp, ?_⟩
  · intro h
    simp only at h
    rw [h] at hl
    simp at hl; omega
  · refine ⟨by simp [dpBs], by simp [dpBs], ?_⟩
    intro c hc
    simp only [dpBs, List.mem_cons, List.not_mem_nil, or_false] at hc
    rcases hc with rfl | rfl
    all_goals exact ⟨by simp [hn], by simp [hn], by simp, by simp⟩
  · simp [hn, dpBs]
  · intro c hc
    simp only [dpBs, List.mem_cons, List.not_mem_nil, or_false] at hc
    rcases hc with rfl | rfl <;> simp

def dpObjs2 : List VObj := [⟨"a".toList, some (some (0, dpD1))⟩, ⟨"b".toList, some (some (1, dpD8))⟩]

/-- What is printed for the data of the blocks of each entry. -/
def dpData (out : List (List (List PEnt))) : List (List (Option (List Byte))) :=
  out.flatten.flatten.map (fun e => e.blks.map (·.data))

theorem dump_junk {st : FState} {objs : List VObj} {wd : Bool} {junk junk' : Ext → Nat → Nat} :
    st.dump objs wd junk = st.dump objs wd junk' := by
  unfold FState.dump
  have : ∀ T, dumpMd T st.disk wd junk = dumpMd T st.disk wd junk' := by
    intro T
    funext m
    unfold dumpMd
    cases m.ends st.disk with
    | ok ends =>
      simp only [Res.ok_bind]
      rw [C36_bounds ends (by simp), C36_bounds ends (by simp)]
    | err => rfl
    | ub => rfl
  simp only [this]

/-- **C71 is violated: shared metadata.** The entry of the second dataset refers to the one of the first, and the offsets of
the blocks in the data are those of the first: the second block is printed with the bytes `4, 5` instead of `5, 6`. -/
theorem C71_share_violated (junk : Ext → Nat → Nat) : ∃ st a stc, Reach ⟨false, true⟩ st a ∧ st.close 1000 2000 = .ok stc ∧
    a.queue.flatten = [⟨0, dpD1, dpBs, [1, 2]⟩, ⟨1, dpD8, dpBs, [3, 4, 5, 6]⟩] ∧ Lists dpObjs2 a.dsets ∧
    ∃ out, stc.dump dpObjs2 true junk = .ok out ∧ dpData out = [[some [1], some [2]], [some [3, 4], some [4, 5]]] := by
  have h : okWith (fun s => okWith (fun s1 => okWith (fun s2 => okWith (fun stc =>
        decide (s.2.dsets = [some dpD1, some dpD8] ∧ s.2.queue = [[]] ∧ s.2.epoch = [[]]) &&
        okWith (fun out => decide (dpData out = [[some [1], some [2]], [some [3, 4], some [4, 5]]]))
        (stc.dump dpObjs2 true (fun _ _ => 0)))
      (s2.close 1000 2000)) (FState.write 0 1 dpBs [3, 4, 5, 6] s1)) (s.1.write 0 0 dpBs [1, 2]))
      (script ⟨false, true⟩ false 1 [.dset dpD1, .dset dpD8]) = true := by decide +kernel
  obtain ⟨⟨st, a⟩, h1, h2⟩ := okWith_iff h
  obtain ⟨st1, h3, h4⟩ := okWith_iff h2
  obtain ⟨st2, h5, h6⟩ := okWith_iff h4
  obtain ⟨stc, h7, h8⟩ := okWith_iff h6
  simp only [Bool.and_eq_true, decide_eq_true_eq] at h8
  obtain ⟨⟨a1, a2, a3⟩, h9⟩ := h8
  obtain ⟨out, o1, o2⟩ := okWith_iff h9
  rw [decide_eq_true_eq] at o2
  have r0 := script_reach (by decide) (by decide) h1
  simp only at r0 a1 a2 a3 h3
  have r1 : Reach ⟨false, true⟩ st1 (a.write 0 dpW1) := by
    refine r0.write 0 dpW1 ⟨dp_ok (.inl rfl) rfl (by decide), by rw [a1]; rfl, by simp, ?_⟩ h3
    intro p hp q hq
    rw [a3] at hp
    rw [a2] at hq
    simp only [List.getElem?_cons_zero, Option.some.injEq] at hp hq
    subst hp hq
    decide
  have r2 : Reach ⟨false, true⟩ st2 ((a.write 0 dpW1).write 0 dpW2) := by
    refine r1.write 0 dpW2 ⟨dp_ok (.inr rfl) rfl (by decide), by simp only [AFile.write, a1]; rfl, by simp, ?_⟩ h5
    intro p hp q hq
    simp only [AFile.write, a2, a3] at hp hq
    simp only [List.modify_zero_cons, List.getElem?_cons_zero, Option.some.injEq] at hp hq
    subst hp hq
    decide
  refine ⟨st2, _, stc, r2, h7, ?_, ?_, out, by rw [dump_junk]; exact o1, o2⟩
  · simp [AFile.write, a2, dpW1, dpW2]
  · simp only [AFile.write, a1]
    constructor
    · intro i d hi
      rcases i with _ | _ | i
      · simp only [List.getElem?_cons_zero, Option.some.injEq] at hi
        subst hi
        exact ⟨⟨"a".toList, some (some (0, dpD1))⟩, by simp [dpObjs2], by decide +kernel, rfl⟩
      · simp only [Nat.zero_add, List.getElem?_cons_succ, List.getElem?_cons_zero, Option.some.injEq] at hi
        subst hi
        exact ⟨⟨"b".toList, some (some (1, dpD8))⟩, by simp [dpObjs2], by decide +kernel, rfl⟩
      · simp at hi
    · intro o ho hs x hx
      simp only [dpObjs2, List.mem_cons, List.not_mem_nil, or_false] at ho
      rcases ho with rfl | rfl
      · simp only [Option.some.injEq] at hx
        exact ⟨0, dpD1, hx.symm, rfl⟩
      · simp only [Option.some.injEq] at hx
        exact ⟨1, dpD8, hx.symm, rfl⟩

/-- **C71 is violated: shared metadata, the other way round.** If the elements of the first dataset are the larger ones, h5ldump reads behind
its buffer. -/
theorem C71_behind_violated (junk : Ext → Nat → Nat) : ∃ st a stc, Reach ⟨false, true⟩ st a ∧ st.close 1000 2000 = .ok stc ∧
    a.queue.flatten = [⟨1, dpD8, dpBs, [3, 4, 5, 6]⟩, ⟨0, dpD1, dpBs, [1, 2]⟩] ∧ a.dsets = [some dpD1, some dpD8] ∧
    stc.dump dpObjs2 true junk = .ub := by
  have h : okWith (fun s => okWith (fun s1 => okWith (fun s2 => okWith (fun stc =>
        decide (s.2.dsets = [some dpD1, some dpD8] ∧ s.2.queue = [[]] ∧ s.2.epoch = [[]]) &&
        (match stc.dump dpObjs2 true (fun _ _ => 0) with
          | .ub => true
          | _ => false))
      (s2.close 1000 2000)) (FState.write 0 0 dpBs [1, 2] s1)) (s.1.write 0 1 dpBs [3, 4, 5, 6]))
      (script ⟨false, true⟩ false 1 [.dset dpD1, .dset dpD8]) = true := by decide +kernel
  obtain ⟨⟨st, a⟩, h1, h2⟩ := okWith_iff h
  obtain ⟨st1, h3, h4⟩ := okWith_iff h2
  obtain ⟨st2, h5, h6⟩ := okWith_iff h4
  obtain ⟨stc, h7, h8⟩ := okWith_iff h6
  simp only [Bool.and_eq_true, decide_eq_true_eq] at h8
  obtain ⟨⟨a1, a2, a3⟩, h9⟩ := h8
  have r0 := script_reach (by decide) (by decide) h1
  simp only at r0 a1 a2 a3 h3
  have r1 : Reach ⟨false, true⟩ st1 (a.write 0 dpW2) := by
    refine r0.write 0 dpW2 ⟨dp_ok (.inr rfl) rfl (by decide), by rw [a1]; rfl, by simp, ?_⟩ h3
    intro p hp q hq
    rw [a3] at hp
    rw [a2] at hq
    simp only [List.getElem?_cons_zero, Option.some.injEq] at hp hq
    subst hp hq
    decide
  have r2 : Reach ⟨false, true⟩ st2 ((a.write 0 dpW2).write 0 dpW1) := by
    refine r1.write 0 dpW1 ⟨dp_ok (.inl rfl) rfl (by decide), by simp only [AFile.write, a1]; rfl, by simp, ?_⟩ h5
    intro p hp q hq
    simp only [AFile.write, a2, a3] at hp hq
    simp only [List.modify_zero_cons, List.getElem?_cons_zero, Option.some.injEq] at hp hq
    subst hp hq
    decide
  refine ⟨st2, _, stc, r2, h7, ?_, a1, ?_⟩
  · simp [AFile.write, a2, dpW1, dpW2]
  · rw [dump_junk (junk' := fun _ _ => 0)]
    revert h9
    cases stc.dump dpObjs2 true (fun _ _ => 0) <;> simp

/-- The table after objects that are all known. -/
theorem dumpVisit_known {n : Nat} {objs : List VObj}
    (h : ∀ o ∈ objs, o.dset ≠ some none ∧ ∀ id d, o.dset = some (some (id, d)) → id < n) :
    ∃ T, dumpVisit n objs = .ok T ∧ T.length = n := by
  unfold dumpVisit
  have key : ∀ (l : List VObj) (T0 : DSets), T0.length = n →
      (∀ o ∈ l, o.dset ≠ some none ∧ ∀ id d, o.dset = some (some (id, d)) → id < n) →
      ∃ T : DSets, l.foldl (fun (r : Res DSets) o => r.bind (fun T => dumpVisit1 T o)) (.ok T0) = .ok T ∧ T.length = n := by
    intro l
    induction l with
    | nil => intro T0 h0 _; exact ⟨T0, rfl, h0⟩
    | cons o l ih =>
      intro T0 h0 hl
      rw [List.foldl_cons]
      obtain ⟨k1, k2⟩ := hl o (by simp)
      have : ∃ T1, dumpVisit1 T0 o = .ok T1 ∧ T1.length = n := by
        unfold dumpVisit1
        split
        · exact ⟨T0, rfl, h0⟩
        · split
          · exact ⟨T0, rfl, h0⟩
          · rename_i e; exact (k1 e).elim
          · rename_i id d e
            rw [if_pos (by rw [h0]; exact k2 id d e)]
            exact ⟨_, rfl, by simpa using h0⟩
      obtain ⟨T1, e1, e2⟩ := this
      rw [show (Res.ok T0 : Res DSets).bind (fun T => dumpVisit1 T o) = .ok T1 from e1]
      exact ih T1 e2 (fun o ho => hl o (by simp [ho]))
  exact key objs _ (by simp) h

/-- **C71 is violated: other datasets.** h5ldump fails if the file has a dataset without the attributes of the connector (one that was put
there by other means), and writes behind its table at a dataset whose number is not below the number of datasets in the file (one created by
a session that died, `C39_crash_violated`). -/
theorem C71_foreign_violated {n : Nat} {objs : List VObj}
    (h : ∀ o ∈ objs, o.dset ≠ some none ∧ ∀ id d, o.dset = some (some (id, d)) → id < n) {o : VObj} (hs : dumpSkips o.path = false) :
    (o.dset = some none → dumpVisit n (objs ++ [o]) = .err) ∧
    (∀ id d, o.dset = some (some (id, d)) → n ≤ id → dumpVisit n (objs ++ [o]) = .ub) := by
  obtain ⟨T, e1, e2⟩ := dumpVisit_known h
  unfold dumpVisit at e1 ⊢
  rw [List.foldl_append, e1]
  simp only [List.foldl_cons, List.foldl_nil, Res.bind]
  constructor
  · intro ho
    simp [dumpVisit1, hs, ho]
  · intro id d ho hn
    simp only [dumpVisit1, hs, ho, Bool.false_eq_true, if_false]
    rw [if_neg (by omega)]

example : (∀ o ∈ dpObjs2, o.dset ≠ some none ∧ ∀ id d, o.dset = some (some (id, d)) → id < 2) ∧ dumpSkips "c".toList = false := by
  refine ⟨?_, by decide +kernel⟩
  intro o ho
  simp only [dpObjs2, List.mem_cons, List.not_mem_nil, or_false] at ho
  rcases ho with rfl | rfl
  · refine ⟨by simp, ?_⟩
    intro id d h
    simp only [Option.some.injEq, Prod.mk.injEq] at h
    omega
  · refine ⟨by simp, ?_⟩
    intro id d h
    simp only [Option.some.injEq, Prod.mk.injEq] at h
    omega

/-- A dataset is written and removed. -/
def dpRemoved : List Op := [.dset ryD, .write 0 (ryW 0 1), .reopen 1000 2000 1 [0]]

/-- **C71 is violated: removed datasets.** After a written dataset has been removed, h5ldump aborts: it takes 0 for the size of
the elements, and the data is larger than the buffer. Without data the block is printed without its coordinates. -/
theorem C71_removed_violated (enc share compact : Bool) (junk : Ext → Nat → Nat) : ∃ st a stc, Reach ⟨enc, share⟩ st a ∧
    st.close 3000 4000 = .ok stc ∧ Small stc ∧ Lists [] a.dsets ∧ stc.dump [] true junk = .err ∧
    ∃ out, stc.dump [] false junk = .ok out ∧ out.flatten.flatten.map (fun e => e.blks.map (·.blk)) = [[⟨[], []⟩]] := by
  have h : ∀ enc share compact, okWith (fun s => okWith (fun stc => smallB stc && decide (s.2.dsets = [none]) &&
      isErr (stc.dump [] true (fun _ _ => 0)) &&
      okWith (fun out => decide (out.flatten.flatten.map (fun e => e.blks.map (·.blk)) = [[⟨[], []⟩]])) (stc.dump [] false (fun _ _ => 0)))
      (s.1.close 3000 4000)) (script ⟨enc, share⟩ compact 1 dpRemoved) = true := by decide +kernel
  obtain ⟨⟨st, a⟩, h1, h2⟩ := okWith_iff (h enc share compact)
  obtain ⟨stc, h3, h4⟩ := okWith_iff h2
  simp only [Bool.and_eq_true, decide_eq_true_eq] at h4
  obtain ⟨⟨⟨b1, b2⟩, b3⟩, b4⟩ := h4
  obtain ⟨out, o1, o2⟩ := okWith_iff b4
  rw [decide_eq_true_eq] at o2
  refine ⟨st, a, stc, script_reach (by decide) (by decide) h1, h3, smallB_iff.mp b1, ?_, ?_, out, by rw [dump_junk]; exact o1, o2⟩
  · rw [b2]
    refine ⟨?_, by simp⟩
    intro i d hi
    rcases i with _ | i <;> simp at hi
  · rw [dump_junk]; exact isErr_iff b3

/-- **C71 is violated: names.** A dataset of the root group whose name begins with a dot is skipped, and then treated as if it
had been removed. -/
theorem C71_dot_violated (n : Name) (x : Option (Option (Nat × DInfo))) (objs : List VObj) (ndset : Nat) :
    dumpVisit ndset (⟨'.' :: n, x⟩ :: objs) = dumpVisit ndset objs := by
  unfold dumpVisit
  rw [List.foldl_cons]
  rfl

/-- Only the names of hidden objects, the root group and names with a dot are skipped: a name stored by the connector for a
name of the user that does not begin with a dot or a slash is not. -/
theorem C71_names_partial {n s : Name} (h : nameRemap n = .ok s) (h1 : n.head? ≠ some '.') (h2 : n.head? ≠ some '/') :
    dumpSkips s = false := by
  unfold nameRemap at h
  split at h
  · simp at h
  · split at h <;> rename_i hu
    · simp only [Res.ok.injEq] at h
      subst h
      simp [dumpSkips, hu]
    · simp only [Res.ok.injEq] at h
      subst h
      simp [dumpSkips, hu, h1, h2]

example : dumpSkips "__x".toList = false ∧ dumpSkips "g/_y".toList = false ∧ dumpSkips "_LOG".toList = true ∧
    dumpSkips ".d".toList = true := by decide +kernel

/-! ### Text -/

/-- The elements of a block, from its bytes. -/
def elements (esize n : Nat) (data : List Byte) : List (List Byte) :=
  (List.range n).map (fun i => (data.drop (i * esize)).take esize)

/-- **C71, partial: text.** Integers of 1, 2, 4 and 8 bytes, floating point numbers of 4 and 8 bytes and strings of one byte are
printed element by element. -/
theorem C71_text_partial (c : TClass) (esize n : Nat) (buf : List Byte)
    (h : (c = .int ∧ esize ∈ [1, 2, 4, 8]) ∨ (c = .float ∧ esize ∈ [4, 8]) ∨ (c = .string ∧ esize = 1) ∨ (c = .other ∧ esize = 1)) :
    shownBytes c esize n buf = elements esize n buf := by
  unfold shownBytes elements shownItems
  rcases h with ⟨rfl, h⟩ | ⟨rfl, h⟩ | ⟨rfl, rfl⟩ | ⟨rfl, rfl⟩
  · simp only [h, if_true]
  · simp only [List.mem_cons, List.not_mem_nil, or_false] at h
    rcases h with rfl | rfl <;> rfl
  · rfl
  · simp

/-- C71, text: of other types, and of integers of other sizes, all bytes are printed one by one. -/
theorem C71_bytes (c : TClass) (esize n : Nat) {buf : List Byte} (h : buf.length = n * esize)
    (hc : c = .other ∨ (c = .int ∧ esize ∉ [1, 2, 4, 8])) : shownBytes c esize n buf = buf.map (fun b => [b]) := by
  have e : shownItems c esize n = (1, n * esize) := by
    rcases hc with rfl | ⟨rfl, hc⟩
    · rfl
    · simp only [shownItems, if_neg hc]
  unfold shownBytes
  rw [e]
  apply List.ext_getElem
  · simp [h]
  · intro i h1 h2
    simp only [List.length_map] at h2
    simp only [List.getElem_map, List.getElem_range, Nat.mul_one]
    rw [List.drop_eq_getElem_cons h2]
    rfl

example : shownBytes .int 3 2 [1, 2, 3, 4, 5, 6] = [[1], [2], [3], [4], [5], [6]] := by decide

/-- **C71 is violated: strings.** Of `n` strings of `k` characters the first `n` *characters* are printed. -/
theorem C71_string_violated (k n : Nat) {buf : List Byte} (h : buf.length = n * k) (hk : 1 < k) :
    (shownBytes .string k n buf).flatten = buf.take n := by
  unfold shownBytes shownItems
  simp only
  have hle : n ≤ buf.length := by rw [h]; exact Nat.le_mul_of_pos_right _ (by omega)
  clear h hk
  induction n with
  | zero => simp
  | succ m ih =>
    rw [List.range_succ, List.map_append, List.flatten_append, ih (by omega)]
    simp only [List.map_cons, List.map_nil, List.flatten_cons, List.flatten_nil, List.append_nil, Nat.mul_one]
    have hm : m < buf.length := by omega
    rw [List.take_add]

/-- **C71 is violated: half precision.** Floating point numbers of 2 bytes are printed as numbers of 4 bytes: item `n / 2` and
the later ones are beyond the data of the block. -/
theorem C71_half_violated (n : Nat) {buf : List Byte} (h : buf.length = n * 2) {i : Nat} (hi : i < n) (h2 : n ≤ 2 * i) :
    (shownBytes .float 2 n buf)[i]? = some [] := by
  unfold shownBytes shownItems
  simp only [show ¬ 4 < 2 by omega, if_false]
  simp only [List.getElem?_map, List.getElem?_range, hi, Option.map_some, Option.some.injEq]
  rw [List.drop_eq_nil_of_le (by omega)]
  rfl

/-- **C71 is violated: base.** Once data of an opaque type, or integers of an unusual size, have been printed, every later
number (also offsets and sizes) is in base 16. -/
theorem C71_hex_violated (hex : Bool) {esize n : Nat} (h : 0 < n * esize) (later : List (TClass × Nat × Nat)) :
    later.foldl (fun b t => hexAfter b t.1 t.2.1 t.2.2) (hexAfter hex .other esize n) = true := by
  have h0 : hexAfter hex .other esize n = true := by simp [hexAfter, h]
  rw [h0]
  clear h0 h
  induction later with
  | nil => rfl
  | cons t l ih =>
    rw [List.foldl_cons]
    have : hexAfter true t.1 t.2.1 t.2.2 = true := by simp [hexAfter]
    rw [this, ih]

/-- Without such data numbers stay in base 10. -/
theorem C71_decimal_partial (l : List (TClass × Nat × Nat)) (h : ∀ t ∈ l, (t.1 = .int ∧ t.2.1 ∈ [1, 2, 4, 8]) ∨ t.1 = .float ∨
    t.1 = .string) : l.foldl (fun b t => hexAfter b t.1 t.2.1 t.2.2) false = false := by
  induction l with
  | nil => rfl
  | cons t l ih =>
    rw [List.foldl_cons]
    have : hexAfter false t.1 t.2.1 t.2.2 = false := by
      rcases h t (by simp) with ⟨h1, h2⟩ | h1 | h1
      · simp only [hexAfter, h1, h2]; simp
      · simp [hexAfter, h1]
      · simp [hexAfter, h1]
    rw [this]
    exact ih (fun t ht => h t (by simp [ht]))

/-! ### Kinds of files -/

/-- Kinds of files by their first bytes: the signature of HDF5, and `CDF` followed by the version of the format (1: classic,
2: 64-bit offset, 5: 64-bit data). -/
inductive KindOf : List Byte → Bool → Bool → Kind → Prop
  | log (rest : List Byte) (nc : Bool) : KindOf (hdf5Sig ++ rest) true nc .logVol
  | nc4 (rest : List Byte) : KindOf (hdf5Sig ++ rest) false true .nc4
  | hdf5 (rest : List Byte) : KindOf (hdf5Sig ++ rest) false false .hdf5
  | classic (rest : List Byte) (l n : Bool) : KindOf (ncSig ++ 1 :: rest) l n .classic
  | offset (rest : List Byte) (l n : Bool) : KindOf (ncSig ++ 2 :: rest) l n .offset64
  | data (rest : List Byte) (l n : Bool) : KindOf (ncSig ++ 5 :: rest) l n .data64

/-- **C71, partial: kinds.** Option `-k` prints the kind of HDF5 files and of NetCDF files with 64-bit offsets. -/
theorem C71_kind_partial {first : List Byte} {islog isnc : Bool} {k : Kind} (h : KindOf first islog isnc k)
    (hk : k ≠ .classic ∧ k ≠ .data64) : fileKind first islog isnc = k := by
  cases h with
  | log rest nc => simp [fileKind, hdf5Sig]
  | nc4 rest => simp [fileKind, hdf5Sig]
  | hdf5 rest => simp [fileKind, hdf5Sig]
  | classic => exact absurd rfl hk.1
  | offset rest l n => simp [fileKind, hdf5Sig, ncSig]
  | data => exact absurd rfl hk.2

/-- **C71 is violated: kinds.** NetCDF classic files are reported as 64-bit data files and vice versa. -/
theorem C71_kind_violated {first : List Byte} {islog isnc : Bool} : (KindOf first islog isnc .classic →
      fileKind first islog isnc = .data64) ∧ (KindOf first islog isnc .data64 → fileKind first islog isnc = .classic) := by
  constructor
  · rintro ⟨⟩
    simp [fileKind, hdf5Sig, ncSig]
  · rintro ⟨⟩
    simp [fileKind, hdf5Sig, ncSig]

example : KindOf [67, 68, 70, 1, 0] false false .classic := KindOf.classic [0] false false

end Verif.Props
