import Verif.Lemmas.Passthru
import Verif.Props.Flush
import Verif.Props.View

/-
C89: passthru mode.
-/

namespace Verif.Props

open Verif.Spec (AW AFile WriteOK MayWrite Fresh Small Served ReqsWF ReqsOK Repeats ReadResult Reach ReachP ReturnsP Passable Light
  LightMd SeesQueue)

/-! ### Writes -/

/-- **C89.** Passthru mode stores the same bytes at the same places: every history in passthru mode leaves the state that it leaves in the
other mode. -/
theorem C89_same {cfg : Cfg} {st : FState} {a : AFile} (h : ReachP cfg st a) : Reach cfg st a := reachP_reach h

/-- **C89, exactly when a flush works.** If no process has queued 2 GiB or more; then it does what it does in the other mode. -/
theorem C89_flush {cfg : Cfg} {st : FState} {a : AFile} (h : Reach cfg st a) (doff : Nat) :
    st.fileFlushP doff = if Light a then st.fileFlush doff else .ub := by
  obtain ⟨g, inv⟩ := reach_inv h
  unfold FState.fileFlushP FState.fileFlush
  by_cases hp : st.anyPending = true
  · rw [if_pos hp, if_pos hp, flushP_eq]
    by_cases hl : Light a
    · rw [if_pos (inv.light.mpr hl), if_pos hl]
    · rw [if_neg (fun h => hl (inv.light.mp h)), if_neg hl]
  · rw [if_neg hp, if_neg hp, if_pos]
    rw [← inv.light]
    intro k hk
    have h0 : k.pending = [] := by
      unfold FState.anyPending at hp
      by_cases h0 : k.pending = []
      · exact h0
      · exact absurd (List.any_eq_true.mpr ⟨k, hk, by simpa using h0⟩) hp
    unfold Rank.localSize
    rw [h0]
    decide

theorem prepareP_eq {cfg : Cfg} {st st1 : FState} {a : AFile} (h : Reach cfg st a) (hl : Light a) (hm : LightMd st) {coll : Bool}
    {doff mdoff : Nat} (hp : st.prepare coll doff mdoff = .ok st1) : st.prepareP coll doff mdoff = .ok st1 := by
  obtain ⟨g, inv⟩ := reach_inv h
  unfold FState.prepare at hp
  obtain ⟨s, e1, e2⟩ := Res.bind_ok hp
  unfold FState.prepareP
  rw [flushP_eq, if_pos (inv.light.mpr hl), e1, Res.ok_bind]
  have hs : LightMd s := by
    split at e1
    · unfold LightMd
      rw [flush_mdSizes e1]
      exact hm
    · injection e1 with e1
      rw [← e1]
      exact hm
  rw [metaflushP_eq, if_pos (fun _ => hs)]
  split
  · rename_i hd
    rw [if_pos hd] at e2
    exact e2
  · rename_i hd
    rw [if_neg hd] at e2
    exact e2

/-- **C89, closing.** Likewise. -/
theorem C89_close {cfg : Cfg} {st : FState} {a : AFile} (h : Reach cfg st a) (hl : Light a) (hm : LightMd st) {doff mdoff : Nat} :
    st.closeP doff mdoff = st.close doff mdoff := by
  obtain ⟨g, inv⟩ := reach_inv h
  unfold FState.closeP FState.close
  rw [flushP_eq, if_pos (inv.light.mpr hl)]
  cases e : st.flush doff with
  | ok s =>
    rw [Res.ok_bind, Res.ok_bind, metaflushP_eq, if_pos]
    · rfl
    · intro _
      unfold LightMd
      rw [flush_mdSizes e]
      exact hm
  | err => rfl
  | ub => rfl

/-! ### Reads -/

theorem reachP_read {cfg : Cfg} {st : FState} {a : AFile} (h : Reach cfg st a) {qs : List RReq} (hi : Served cfg st.compact a qs)
    (hq : ReqsWF st.compact a.dsets qs) (pa : Passable a.done qs) (rp : Repeats a.done qs) {r : Nat} (hr : r < a.queue.length)
    (he : a.epoch.flatten = []) (hm : st.mbuf = none ∨ a.done ≠ []) : ReturnsP st r qs a.done := by
  obtain ⟨g, inv⟩ := reach_inv h
  refine ⟨g.mdx.flatten.length, fun fuel hf fill mem => ?_⟩
  obtain ⟨raw, st', s1, s2⟩ := search_served inv hq hi hr he hm hf
  have key : ∀ hs, SortedHits raw hs → ∃ mem', readHitsP st.disk st.lds hs (prefill fill qs mem) = .ok mem' ∧
      ReadResult a.done fill qs mem mem' := by
    intro hs hsort
    obtain ⟨raw', r1, r2⟩ := found_lift s2 hsort
    obtain ⟨mem', m1, m2⟩ := readP_total inv.lay (inv.readOK he hq) (by rw [inv.done]; exact pa) (reach_lds h) inv.inl st.disk
      (prefill fill qs mem) r2 r1
    exact ⟨mem', m2, found_result inv hq he rp r2 r1 m1⟩
  constructor
  · obtain ⟨hs, hsort⟩ := sortedHits_exists raw
    obtain ⟨mem', h1, _⟩ := key hs hsort
    exact ⟨mem', Or.inl ⟨raw, st', hs, s1, hsort, h1.symm⟩⟩
  · rintro out (⟨raw1, st1, hs, e1, e2, e3⟩ | ⟨e1, _⟩ | ⟨e1, _⟩)
    · rw [s1] at e1
      simp only [Res.ok.injEq, Prod.mk.injEq] at e1
      rw [← e1.1] at e2
      obtain ⟨mem', h1, h2⟩ := key hs e2
      exact ⟨mem', by rw [e3, h1], h2⟩
    · rw [s1] at e1; simp at e1
    · rw [s1] at e1; simp at e1

/-- **C89, partial: requests that can be served in passthru mode, with less than 2 GiB queued.** After any history in passthru mode, a
read that sees the queued writes succeeds and returns for every requested byte the one of the last write covering it, else the fill value,
else what was in the buffer; nothing else is changed. The blocks need not be `Viewable`. Missing: blocks where a dimension
between the first and the last has more than one index (`C89_block_violated`), rows of 2 GiB, scalar datasets read more than once in one
call. -/
theorem C89_readback_partial (cfg : Cfg) {st : FState} {a : AFile} (h : ReachP cfg st a) {coll : Bool} (hcoll : SeesQueue coll a)
    {doff mdoff : Nat} (hf : Fresh st doff) (hf' : Fresh st mdoff) (hd : doff + Spec.queued a ≤ mdoff) (hl : Light a) (hlm : LightMd st)
    {qs : List RReq} (hi : Served cfg st.compact a.flush.metaflush qs) (hq : ReqsWF st.compact a.dsets qs)
    (pa : Passable (a.done ++ a.queue.flatten) qs) (rp : Repeats (a.done ++ a.queue.flatten) qs) {r : Nat} (hr : r < a.queue.length)
    (hm : st.mbuf = none ∨ a.done ++ a.queue.flatten ≠ []) :
    ∃ st1, st.prepareP coll doff mdoff = .ok st1 ∧ (Small st1 → ReturnsP st1 r qs (a.done ++ a.queue.flatten)) := by
  have hR := reachP_reach h
  obtain ⟨g, inv⟩ := reach_inv hR
  have hc : coll = true ∨ a.queue.length = 1 ∨ a.epoch.flatten = [] ∨ a.queue.flatten = [] := by
    rcases hcoll with h | h | h
    · exact Or.inl h
    · exact Or.inr (Or.inl h)
    · exact Or.inr (Or.inr (Or.inr h))
  obtain ⟨st1, h1, _⟩ := inv_prepare inv hf hf' hd hc
  obtain ⟨c1, c2⟩ := prepare_same h1
  have hp : a.prepare coll = a.flush.metaflush := by
    unfold AFile.prepare
    split
    · rfl
    · rename_i hb
      simp only [Bool.or_eq_true, decide_eq_true_eq, not_or] at hb
      rw [flush_empty (hcoll.resolve_left hb.1 |>.resolve_left hb.2) (by rw [inv.epoch, inv.queue, List.length_map, List.length_map])]
  refine ⟨st1, prepareP_eq hR hl hlm h1, fun hsm => ?_⟩
  have hreach := Reach.prepare coll doff mdoff hR hf hf' hd hc h1 hsm
  have hdone : (a.prepare coll).done = a.done ++ a.queue.flatten := by rw [hp]; rfl
  have := reachP_read hreach (qs := qs) (r := r) (by rw [c1, hp]; exact hi) (by rw [c1, hp]; exact hq) (by rw [hdone]; exact pa)
    (by rw [hdone]; exact rp) (by rw [hp]; simpa [AFile.flush, AFile.metaflush] using hr) (by rw [hp]; simp [AFile.metaflush])
    (by rw [c2, hdone]; exact hm)
  rw [hdone] at this
  exact this

/-- **C89, any requests, also overlapping ones.** What a read returns with passthru mode off it can return with passthru mode on, if the
requests can be served in passthru mode. -/
theorem C89_agree {cfg : Cfg} {st : FState} {a : AFile} (h : Reach cfg st a) {qs : List RReq} (hi : Served cfg st.compact a qs)
    (hq : ReqsWF st.compact a.dsets qs) (pa : Passable a.done qs) {r : Nat} (hr : r < a.queue.length) (he : a.epoch.flatten = [])
    (hm : st.mbuf = none ∨ a.done ≠ []) :
    ∃ n, ∀ fuel ≥ n, ∀ fill mem m, st.reads fuel r fill qs mem (.ok m) → st.readsP fuel r fill qs mem (.ok m) := by
  obtain ⟨g, inv⟩ := reach_inv h
  refine ⟨g.mdx.flatten.length, fun fuel hf fill mem m ho => ?_⟩
  obtain ⟨raw, st', s1, s2⟩ := search_served inv hq hi hr he hm hf
  rcases ho with ⟨raw1, st1, hs, e1, e2, e3⟩ | ⟨_, e1⟩ | ⟨_, e1⟩
  · rw [s1] at e1
    simp only [Res.ok.injEq, Prod.mk.injEq] at e1
    rw [← e1.1] at e2
    obtain ⟨raw', r1, r2⟩ := found_lift s2 e2
    obtain ⟨mem', m1, m2⟩ := readP_total inv.lay (inv.readOK he hq) (by rw [inv.done]; exact pa) (reach_lds h) inv.inl st.disk
      (prefill fill qs mem) r2 r1
    have := readHits_core e3.symm
    rw [m1] at this
    injection this with this
    rw [← this]
    exact Or.inl ⟨raw, st', hs, s1, e2, m2.symm⟩
  · simp at e1
  · simp at e1

/-! ### Violations -/

/-- **C89, violated: 2 GiB.** If a process has queued 2 GiB or more in several writes, a flush is undefined in passthru mode; in the
other mode it stores the data. -/
theorem C89_big_violated {cfg : Cfg} {st : FState} {a : AFile} (h : Reach cfg st a) (hl : ¬Light a) (doff : Nat) (hf : Fresh st doff)
    (hs : doff + Spec.queued a < 2 ^ 63) :
    st.fileFlushP doff = .ub ∧ ∃ st', st.fileFlush doff = .ok st' ∧ Reach cfg st' a.flush := by
  obtain ⟨st', h1, _, _, _, _, _, h2⟩ := reach_flush h hf hs
  exact ⟨by rw [C89_flush h, if_neg hl], st', h1, h2⟩

/-- **C89, violated: filters.** A block of a filtered dataset can be read in passthru mode only if it is all that its log dataset holds. -/
theorem C89_filter_violated {lds : List Ext} (ho : lds.Pairwise (fun e e' => e.addr + e.size ≤ e'.addr)) {e : Ext} (he : e ∈ lds)
    {foff fsize : Nat} (h0 : 0 < fsize) (h1 : e.addr ≤ foff) (h2 : foff + fsize ≤ e.addr + e.size) :
    passFiltered lds foff fsize = if foff = e.addr ∧ fsize = e.size then .ok (foff, fsize) else .err := by
  unfold passFiltered
  rw [if_neg (by omega), logAt_mem ho he (by omega) (by omega)]
  simp only
  by_cases hs : e.size = fsize
  · rw [if_pos hs, if_pos (by omega)]
    simp only [Res.ok.injEq, Prod.mk.injEq]
    omega
  · rw [if_neg hs, if_neg (by omega)]

theorem closeSlots_eq : ∀ l : List Slot, closeSlots l = if Slot.unset ∈ l then .ub else .ok ()
  | [] => rfl
  | .unset :: l => by simp [closeSlots]
  | .null :: l => by
    rw [closeSlots, closeSlots_eq l]
    · simp
    · simp
  | .open :: l => by
    rw [closeSlots, closeSlots_eq l]
    · simp
    · simp

/-- **C89, violated: failures.** If a log dataset cannot be opened, reading does not fail but is undefined (the arrays of handles are not
initialised). -/
theorem C89_fail_violated (opens : Nat → Bool) (n : Nat) :
    passOpen opens n = if ∀ i < n, opens i = true then .ok () else .ub := by
  have key : ∀ k i, i + k = n → openLogs opens n k i (List.replicate i .open ++ List.replicate k .unset)
      (List.replicate i .open ++ List.replicate k .unset) = if ∀ j, i ≤ j → j < n → opens j = true then .ok () else .ub := by
    intro k
    induction k with
    | zero =>
      intro i hi
      rw [openLogs, closeSlots_eq, if_neg (by simp), Res.ok_bind, if_pos (fun j h1 h2 => by omega)]
    | succ k ih =>
      intro i hi
      have hset : ∀ x : Slot, (List.replicate i Slot.open ++ List.replicate (k + 1) Slot.unset).set i x =
          List.replicate i Slot.open ++ (x :: List.replicate k Slot.unset) := by
        intro x
        rw [List.replicate_succ, List.set_append_right _ _ (by simp)]
        simp
      unfold openLogs
      by_cases ho : opens i = true
      · rw [if_pos ho, hset]
        have e : List.replicate i Slot.open ++ (Slot.open :: List.replicate k Slot.unset) =
            List.replicate (i + 1) Slot.open ++ List.replicate k Slot.unset := by
          rw [List.replicate_succ', List.append_assoc, List.singleton_append]
        rw [e, ih (i + 1) (by omega)]
        by_cases hall : ∀ j, i ≤ j → j < n → opens j = true
        · rw [if_pos hall, if_pos (fun j h1 h2 => hall j (by omega) h2)]
        · rw [if_neg hall, if_neg]
          intro h
          apply hall
          intro j h1 h2
          by_cases hji : j = i
          · rw [hji]; exact ho
          · exact h j (by omega) h2
      · rw [if_neg ho, if_neg (fun h => ho (h i (Nat.le_refl _) (by omega))), hset, closeSlots_eq, closeSlots_eq]
        have h2 : Slot.unset ∈ List.replicate i Slot.open ++ List.replicate (k + 1) Slot.unset := by simp
        rw [if_pos h2]
        split <;> rfl
  have := key n 0 (by omega)
  simp only [List.replicate_zero, List.nil_append, Nat.zero_le, forall_const] at this
  exact this

/-- **C89, violated: order of the log datasets.** A block in a log dataset that is followed by one with a lower address cannot be read:
the code takes the last log dataset that does not begin after the block. -/
theorem C89_order_violated {l1 l2 : List Ext} {e e' : Ext} {s : Seg} (h0 : 0 < s.len) (h1 : (e.addr : Int) ≤ s.f)
    (_h2 : s.f + s.len ≤ (e.addr + e.size : Nat)) (h3 : e'.addr + e'.size ≤ e.addr)
    (hl : ∀ x ∈ l2, x.addr + x.size ≤ e.addr) : passSeg (l1 ++ e :: e' :: l2) s = .err := by
  unfold passSeg
  have key : ∃ x, logAt (l1 ++ e :: e' :: l2) s.f = some x ∧ x.addr + x.size ≤ e.addr := by
    unfold logAt
    rw [show l1 ++ e :: e' :: l2 = (l1 ++ [e]) ++ (e' :: l2) by simp, List.reverse_append, List.find?_append]
    obtain ⟨x, hx⟩ : ∃ x, (e' :: l2).reverse.find? (fun e => decide ((e.addr : Int) ≤ s.f)) = some x := by
      cases hc : (e' :: l2).reverse.find? (fun e => decide ((e.addr : Int) ≤ s.f)) with
      | some x => exact ⟨x, rfl⟩
      | none =>
        rw [List.find?_eq_none] at hc
        exact absurd (decide_eq_true (by omega)) (hc e' (by simp))
    refine ⟨x, by rw [hx]; rfl, ?_⟩
    have := List.mem_of_find?_eq_some hx
    simp only [List.mem_reverse, List.mem_cons] at this
    rcases this with rfl | hm
    · exact h3
    · exact hl x hm
  obtain ⟨x, k1, k2⟩ := key
  simp only [k1]
  rw [if_neg]
  omega

/-! ### Blocks -/

/-- A 6 x 2 x 2 dataset of bytes: rows 0 and 1 are written, then rows 4 and 5. -/
def pxD : DInfo := ⟨[6, 2, 2], [some 6, some 2, some 2], 1⟩
def pxA : AW := ⟨0, pxD, [⟨[0, 0, 0], [2, 2, 2]⟩], [1, 2, 3, 4, 5, 6, 7, 8]⟩
def pxB : AW := ⟨0, pxD, [⟨[4, 0, 0], [2, 2, 2]⟩], [11, 12, 13, 14, 15, 16, 17, 18]⟩
/-- Rows 0 to 3; rows 4 and 5. -/
def pxQ : RReq := ⟨0, pxD, [⟨[0, 0, 0], [4, 2, 2]⟩], 100⟩
def pxR : RReq := ⟨0, pxD, [⟨[4, 0, 0], [2, 2, 2]⟩], 100⟩

def pxRun (cfg : Cfg) (compact : Bool) : Res FState := do
  let s ← ((FState.create cfg compact none 1 (fun _ => 0)).addDset pxD).write 0 0 pxA.bs pxA.data
  s.write 0 0 pxB.bs pxB.data

def pxFile : AFile := (((AFile.create 1).addDset pxD).write 0 pxA).write 0 pxB

theorem px_ok (cfg : Cfg) : WriteOK cfg pxA ∧ WriteOK cfg pxB := by
  constructor
  all_goals
    refine writeOK_one rfl (by decide) (by decide) (by decide) ⟨by decide, by decide, ?_⟩ (by decide) rfl (by decide)
    intro b hb
    simp [pxA, pxB] at hb
    subst hb
    constructor <;> decide

theorem px_reach {cfg : Cfg} {compact : Bool} {st : FState} (h : pxRun cfg compact = .ok st) : ReachP cfg st pxFile := by
  unfold pxRun at h
  obtain ⟨s1, h1, h⟩ := Res.bind_ok h
  have r0 : ReachP cfg ((FState.create cfg compact none 1 (fun _ => 0)).addDset pxD) ((AFile.create 1).addDset pxD) :=
    ReachP.addDset pxD (ReachP.create compact none 1 _ (by decide) (by decide))
  have r1 := ReachP.write 0 pxA r0 (mayWrite_of (px_ok cfg).1 rfl (p := []) (q := []) rfl rfl (by decide) (by simp)) h1
  refine ReachP.write 0 pxB r1 (mayWrite_of (px_ok cfg).2 rfl (p := []) (q := [pxA]) rfl rfl (by decide) ?_) h
  intro w _ h1
  simp [pxB] at h1

theorem px_request (compact : Bool) : ReqsOK compact pxFile.dsets [pxQ] ∧ ReqsOK compact pxFile.dsets [pxR] := by
  constructor
  all_goals
    refine ⟨?_, ?_, ?_, ?_, ?_, ?_, ?_, ?_⟩
    · simp [pxFile, pxQ, pxR, AFile.write, AFile.addDset, AFile.create]
    · decide
    · decide
    · decide
    · intro _
      simp only [List.mem_singleton, forall_eq]
      intro b hb n hn
      have : (∀ b ∈ pxQ.bs, ∀ n ∈ b.start, n < 2 ^ 31) ∧ ∀ b ∈ pxR.bs, ∀ n ∈ b.start, n < 2 ^ 31 := by decide
      first
        | exact this.1 b hb n (List.mem_of_head? hn)
        | exact this.2 b hb n (List.mem_of_head? hn)
    · simp only [List.mem_singleton, forall_eq]
      exact List.pairwise_singleton _ _
    · exact List.pairwise_singleton _ _
    · exact List.pairwise_singleton _ _

/-- **C89 is violated: blocks of three dimensions**, in every configuration and with both indexes. After two writes of 2 x 2 x 2 cells, a
read of rows 0 to 3 succeeds, but cell (0, 1, 0), which was written, is not read, and cell (2, 0, 0), which was not, receives the value of
cell (4, 0, 0). A read of rows 4 and 5 fails. The other mode returns both (`C02_readback_partial`). -/
theorem C89_block_violated (enc share compact : Bool) :
    ∃ st st1, ReachP ⟨enc, share⟩ st pxFile ∧ pxFile.queue = [[pxA, pxB]] ∧ st.compact = compact ∧
      ReqsOK st.compact pxFile.dsets [pxQ] ∧ ReqsOK st.compact pxFile.dsets [pxR] ∧
      st.prepareP fileMode 1000 2000 = .ok st1 ∧ Small st1 ∧ ∀ fuel fill mem,
      (∀ out, st1.readsP fuel 0 fill [pxQ] mem out → ∃ m, out = .ok m ∧ (fill 0 = none → m 102 = mem 102) ∧ m 108 = 11) ∧
      (∀ out, st1.readsP fuel 0 fill [pxR] mem out → out = .err) ∧
      Spec.addrOf pxQ 0 ⟨[0, 0, 0], [4, 2, 2]⟩ [0, 1, 0] 0 = 102 ∧ Spec.lastByte [pxA, pxB] 0 [0, 1, 0] 0 = some 3 ∧
      Spec.addrOf pxQ 0 ⟨[0, 0, 0], [4, 2, 2]⟩ [2, 0, 0] 0 = 108 ∧ Spec.lastByte [pxA, pxB] 0 [2, 0, 0] 0 = none := by
  have h : ∀ enc share compact, okWith (fun st => okWith (fun st1 => decide (Small st1 ∧ st1.mbuf = none ∧ st.compact = compact) &&
      okWith (fun raw => sortedB raw.1 && okWith (fun g => decide (g.2 = []) &&
        decide ((atAddr 102 g.1).getLast?.map (fun p => st1.disk p.1.toNat) = none) &&
        decide ((atAddr 108 g.1).getLast?.map (fun p => st1.disk p.1.toNat) = some 11)) (passGroups st1.lds (groups raw.1)))
        (st1.search 0 0 [pxQ]) &&
      okWith (fun raw => sortedB raw.1 && decide (passGroups st1.lds (groups raw.1) = .err)) (st1.search 0 0 [pxR]))
      (st.prepareP fileMode 1000 2000)) (pxRun ⟨enc, share⟩ compact) = true := by decide +kernel
  obtain ⟨st, h1, h2⟩ := okWith_iff (h enc share compact)
  obtain ⟨st1, h3, h4⟩ := okWith_iff h2
  rw [Bool.and_eq_true, Bool.and_eq_true, decide_eq_true_eq] at h4
  obtain ⟨⟨⟨a1, a2, a3⟩, a4⟩, a5⟩ := h4
  obtain ⟨⟨raw, st'⟩, s1, s2⟩ := okWith_iff a4
  rw [Bool.and_eq_true] at s2
  obtain ⟨s2, s3⟩ := s2
  obtain ⟨g, g1, g2⟩ := okWith_iff s3
  simp only [Bool.and_eq_true, decide_eq_true_eq] at g2
  obtain ⟨⟨raw', st''⟩, t1, t2⟩ := okWith_iff a5
  rw [Bool.and_eq_true, decide_eq_true_eq] at t2
  have inv : ∀ {raw st' qs fuel fill mem out}, st1.search 0 0 qs = .ok (raw, st') → sortedB raw = true →
      st1.readsP fuel 0 fill qs mem out → out = readHitsP st1.disk st1.lds raw (prefill fill qs mem) := by
    intro raw st' qs fuel fill mem out hs hb ho
    unfold FState.readsP at ho
    rw [search_fuel a2 fuel 0, hs] at ho
    rcases ho with ⟨raw', st'', hs, e1, e2, e3⟩ | ⟨e1, _⟩ | ⟨e1, _⟩
    · simp only [Res.ok.injEq, Prod.mk.injEq] at e1
      obtain ⟨rfl, rfl⟩ := e1
      rw [e3, sorted_unique e2 (by simpa [sortedB] using hb)]
    · simp at e1
    · simp at e1
  refine ⟨st, st1, px_reach h1, rfl, a3, (px_request _).1, (px_request _).2, h3, a1, fun fuel fill mem => ⟨?_, ?_, by decide, by decide, by decide, by decide⟩⟩
  · intro out ho
    have := inv s1 s2 ho
    unfold readHitsP at this
    rw [g1, Res.ok_bind, g2.1.1] at this
    refine ⟨_, this, ?_, ?_⟩
    · intro hn
      rw [List.foldl_nil, applyPairs_eq, g2.1.2]
      show prefill fill [pxQ] mem 102 = mem 102
      unfold prefill
      rw [List.foldl_cons, List.foldl_nil]
      unfold fillReq
      rw [show pxQ.did = 0 from rfl, hn]
    · rw [List.foldl_nil, applyPairs_eq, g2.2]
      rfl
  · intro out ho
    have := inv t1 t2.1 ho
    unfold readHitsP at this
    rw [t2.2] at this
    exact this

/-! ### Cases -/

theorem fx_reachP {cfg : Cfg} {compact : Bool} {mbuf : Option Nat} {st : FState} (h : fxRun cfg compact mbuf = .ok st) :
    ReachP cfg st fxFile := by
  unfold fxRun at h
  obtain ⟨s1, h1, h⟩ := Res.bind_ok h
  obtain ⟨s2, h2, h⟩ := Res.bind_ok h
  have r0 : ReachP cfg ((FState.create cfg compact mbuf 2 (fun _ => 0)).addDset fxD) ((AFile.create 2).addDset fxD) :=
    ReachP.addDset fxD (ReachP.create compact mbuf 2 _ (by decide) (by decide))
  have hw := mayWrite_of (fxA_ok cfg) rfl (a := (AFile.create 2).addDset fxD) (r := 0) (p := []) (q := []) rfl rfl (by decide) (by simp)
  have r1 := ReachP.write 0 fxA r0 hw h1
  obtain ⟨s1', e1, e2, e3, _⟩ := reach_write (reachP_reach r0) hw (by decide)
  obtain rfl : s1' = s1 := Res.ok.inj (e1.symm.trans h1)
  have hf : Fresh s1' 1000 := by
    intro e he
    rw [e2, e3] at he
    simp [FState.create, FState.addDset] at he
  obtain ⟨s2', f1, f2, _, _, _, f6, _⟩ := reach_flush (reachP_reach r1) hf (by decide)
  rw [f1] at h2
  injection h2 with h2
  subst h2
  have r2 := ReachP.flush 1000 r1 hf (by rw [C89_flush (reachP_reach r1), if_pos (by decide)]; exact f1) (by
    intro e he
    rw [f2, e3] at he
    rcases List.mem_append.mp he with he | he
    · rcases f6 e he with he | he
      · rw [e2] at he
        simp [FState.create, FState.addDset] at he
      · rw [he]
        decide
    · simp [FState.create, FState.addDset] at he)
  exact ReachP.write 1 fxB r2 (mayWrite_of (fxB_ok cfg) rfl (p := []) (q := []) rfl rfl (by decide) (by simp)) h

theorem fx_passable : Passable [fxA, fxB] [fxQ] where
  flat := by
    simp only [List.mem_singleton, forall_eq]
    intro b hb i h1 h2
    simp [fxQ] at hb
    rcases hb with rfl | rfl
    all_goals
      simp at h2
      omega
  row := by decide
  single := by decide
  once := by decide
  elem := by decide

/-- The hypotheses of `C89_readback_partial` hold for the history of `Props/FileEx.lean`. -/
example (enc share compact : Bool) : ∃ st st1, ReachP ⟨enc, share⟩ st fxFile ∧ fxFile.done = [fxA] ∧ fxFile.queue = [[], [fxB]] ∧
    st.compact = compact ∧ st.mbuf = none ∧ SeesQueue true fxFile ∧ Fresh st 2000 ∧ Fresh st 3000 ∧ 2000 + Spec.queued fxFile ≤ 3000 ∧
    Light fxFile ∧ LightMd st ∧ Served ⟨enc, share⟩ st.compact fxFile.flush.metaflush [fxQ] ∧
    ReqsWF st.compact fxFile.dsets [fxQ] ∧ Passable (fxFile.done ++ fxFile.queue.flatten) [fxQ] ∧
    Repeats (fxFile.done ++ fxFile.queue.flatten) [fxQ] ∧ st.prepareP true 2000 3000 = .ok st1 ∧ Small st1 := by
  obtain ⟨st, st1, h1, h2, h3, h4, h5, h6, h7⟩ := fx_run enc share compact
  have hm : LightMd st := by
    have : ∀ enc share compact, okWith (fun st => decide (LightMd st)) (fxRun ⟨enc, share⟩ compact none) = true := by decide +kernel
    obtain ⟨st', e1, e2⟩ := okWith_iff (this enc share compact)
    rw [h1] at e1
    injection e1 with e1
    rw [e1]
    exact of_decide_eq_true e2
  have hr := fx_reachP h1
  exact ⟨st, st1, hr, rfl, rfl, h4, h5, Or.inl rfl, h6, h7, by decide, by decide, hm, fx_served _ _, (fx_request _).1.wf,
    fx_passable, (fx_request st.compact).1.repeats _, prepareP_eq (reachP_reach hr) (by decide) hm h2, h3⟩

/-- A dataset of `2 * n` bytes, written in two halves. -/
def gbD (n : Nat) : DInfo := ⟨[2 * n], [some (2 * n)], 1⟩
def gbW (n i : Nat) : AW := ⟨0, gbD n, [⟨[i * n], [n]⟩], List.replicate n 0⟩
def gbFile (n : Nat) : AFile := (((AFile.create 1).addDset (gbD n)).write 0 (gbW n 0)).write 0 (gbW n 1)

theorem gb_ok (cfg : Cfg) {n : Nat} (h0 : 0 < n) (h1 : n < 2 ^ 31) {i : Nat} (hi : i ≤ 1) : WriteOK cfg (gbW n i) := by
  have hl : (gbW n i).data.length = n := List.length_replicate
  refine writeOK_one ?_ ?_ (by rw [hl]; exact h1) (by show 0 < 2 ^ 31; decide) ⟨by simp [gbW], by simp [gbW, gbD], ?_⟩
    (by simp [gbW, gbD, DInfo.ndim]) rfl (by simpa [gbW] using h1)
  · unfold AW.Exact
    rw [hl]
    simp [gbW, gbD, Blk.size, prod]
  · intro h
    rw [h] at hl
    simp at hl
    omega
  · intro b hb
    simp [gbW] at hb
    subst hb
    have hm : i * n ≤ 1 * n := Nat.mul_le_mul_right n hi
    constructor <;> simp [gbW, gbD, DInfo.ndim] <;> omega

theorem gb_reach (cfg : Cfg) (compact : Bool) {n : Nat} (h0 : 2 ^ 30 ≤ n) (h1 : n < 2 ^ 31) :
    ∃ st, Reach cfg st (gbFile n) ∧ ¬Light (gbFile n) ∧ Fresh st 1000 ∧ 1000 + Spec.queued (gbFile n) < 2 ^ 63 := by
  have r0 : Reach cfg ((FState.create cfg compact none 1 (fun _ => 0)).addDset (gbD n)) ((AFile.create 1).addDset (gbD n)) :=
    Reach.addDset (gbD n) (Reach.create compact none 1 _ (by decide) (by decide))
  have m1 : MayWrite cfg ((AFile.create 1).addDset (gbD n)) 0 (gbW n 0) :=
    mayWrite_of (gb_ok cfg (by omega) h1 (Nat.zero_le 1)) rfl (p := []) (q := []) rfl rfl (by decide) (by simp)
  obtain ⟨s1, e1, e2, e3, _⟩ := reach_write r0 m1 (by simp [AFile.addDset, AFile.create])
  have r1 := Reach.write 0 (gbW n 0) r0 m1 e1
  have m2 : MayWrite cfg (((AFile.create 1).addDset (gbD n)).write 0 (gbW n 0)) 0 (gbW n 1) :=
    mayWrite_of (gb_ok cfg (by omega) h1 (Nat.le_refl 1)) rfl (p := []) (q := [gbW n 0]) rfl rfl (by simp) (by simp [gbW])
  obtain ⟨s2, f1, f2, f3, _⟩ := reach_write r1 m2 (by simp [AFile.write, AFile.addDset, AFile.create])
  have hq : (gbFile n).queue = [[gbW n 0, gbW n 1]] := rfl
  have hl : ∀ i, (gbW n i).data.length = n := fun _ => List.length_replicate
  refine ⟨s2, Reach.write 0 (gbW n 1) r1 m2 f1, ?_, ?_, ?_⟩
  · intro h
    have := h [gbW n 0, gbW n 1] (by rw [hq]; simp)
    simp only [List.map_cons, List.map_nil, hl, List.sum_cons, List.sum_nil] at this
    omega
  · intro e he
    rw [f2, f3, e2, e3] at he
    simp [FState.create, FState.addDset] at he
  · unfold Spec.queued
    rw [hq]
    simp only [List.flatten_cons, List.flatten_nil, List.append_nil, List.map_cons, List.map_nil, hl, List.sum_cons, List.sum_nil]
    omega

/-- The hypotheses of `C89_big_violated` hold: one process queues two writes of 1 GiB. -/
example (cfg : Cfg) : ∃ st, Reach cfg st (gbFile (2 ^ 30)) ∧ ¬Light (gbFile (2 ^ 30)) ∧ Fresh st 1000 ∧
    1000 + Spec.queued (gbFile (2 ^ 30)) < 2 ^ 63 := gb_reach cfg false (Nat.le_refl _) (by decide)

example : passFiltered [⟨1000, 50⟩, ⟨2000, 30⟩] 2000 20 = .err ∧ passFiltered [⟨1000, 50⟩, ⟨2000, 30⟩] 2000 30 = .ok (2000, 30) := by
  decide

example : passSeg [⟨5000, 100⟩, ⟨2000, 100⟩] ⟨5010, 0, 8⟩ = .err ∧ passOpen (fun i => decide (i ≠ 1)) 3 = .ub := by decide

end Verif.Props
