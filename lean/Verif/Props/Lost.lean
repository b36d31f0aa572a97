import Verif.Props.Select

/-
C50 for regular hyperslabs that are not `Safe`: writes through them do not store all elements.
-/

namespace Verif.Props
open Verif.Spec (AW AFile Reach MayWrite Returns ReadResult expected lastByte cellByte positions GridOK InGrid gridBlocks Safe timesIn InBlk Fresh Small
  Readable SeesQueue Exact RowLt)

theorem lastByte_skip {w : AW} {x : List Nat} (h : timesIn w.bs x = 0) (did k : Nat) (l1 l2 : List AW) :
    lastByte (l1 ++ w :: l2) did x k = lastByte (l1 ++ l2) did x k := by
  have hc : cellByte w x k = none := by
    have : positions w.d.esize w.bs x = [] := by
      rw [List.eq_nil_iff_forall_not_mem]
      intro p hp
      obtain ⟨i, hi, hin, _⟩ := mem_positions.mp hp
      unfold timesIn at h
      rw [List.length_eq_zero_iff, List.filter_eq_nil_iff] at h
      exact h _ (List.getElem_mem hi) (by simpa using hin)
    simp [cellByte, this]
  unfold lastByte
  by_cases hd : w.did = did
  · simp [hd, hc]
  · simp [hd]

theorem flatten_modify {α : Type} (w : α) : ∀ (qs : List (List α)) (r : Nat), r < qs.length →
    ∃ l1 l2, (qs.modify r (fun q => q ++ [w])).flatten = l1 ++ w :: l2 ∧ qs.flatten = l1 ++ l2
  | q :: qs, 0, _ => ⟨q, qs.flatten, by simp, by simp⟩
  | q :: qs, r + 1, h => by
    obtain ⟨l1, l2, h1, h2⟩ := flatten_modify w qs r (by simpa using h)
    exact ⟨q ++ l1, l2, by simp [h1], by simp [h2]⟩

theorem lastByte_lost {a : AFile} {r : Nat} (hr : r < a.queue.length) {w : AW} {x : List Nat} (h : timesIn w.bs x = 0) (did k : Nat) :
    lastByte ((a.write r w).done ++ (a.write r w).queue.flatten) did x k = lastByte (a.done ++ a.queue.flatten) did x k := by
  obtain ⟨l1, l2, h1, h2⟩ := flatten_modify w a.queue r hr
  simp only [AFile.write]
  rw [h1, h2, ← List.append_assoc, ← List.append_assoc]
  exact lastByte_skip h did k _ _

/-- **C50 is violated by every regular hyperslab that is not `Safe`.** There is a selected cell `x` such that a write through the
selection, after any history, in any configuration, changes nothing there although it succeeds: a later read of the
cell succeeds and returns what had been there before. -/
theorem C50_lost_violated {srt : List (List Nat) → List Nat} (hs : IsSort srt) {s t c b : List Nat} (hn : 0 < s.length)
    (hg : GridOK s t c b) (hu : ¬ Safe t c b) :
    ∃ sel x, selections srt s.length (.hyper (some ⟨s, t, c, b⟩) (gridBlocks s t c b)) = .ok sel ∧ sel.destroy s.length = .ok () ∧
      InGrid s t c b x ∧
      ∀ (cfg : Cfg) (st : FState) (a : AFile) (did : Nat) (d : DInfo) (data : List Byte) (r : Nat), Reach cfg st a → d.ndim = s.length →
        MayWrite cfg a r ⟨did, d, sel.blocks, data⟩ → r < a.queue.length →
        ∃ st', st.write r did sel.blocks data = .ok st' ∧ Reach cfg st' (a.write r ⟨did, d, sel.blocks, data⟩) ∧
          ∀ (coll : Bool) (doff mdoff r' xbuf : Nat), SeesQueue coll (a.write r ⟨did, d, sel.blocks, data⟩) → Fresh st' doff → Fresh st' mdoff →
            doff + Spec.queued (a.write r ⟨did, d, sel.blocks, data⟩) ≤ mdoff →
            Readable cfg st'.compact (a.write r ⟨did, d, sel.blocks, data⟩).flush.metaflush did →
            0 < d.esize → (∀ m ∈ d.dims, m < 2 ^ 31) → List.Forall₂ (· < ·) x d.dims → r' < a.queue.length →
            ∃ one st1, selections srt s.length (.points [x]) = .ok one ∧ st'.prepare coll doff mdoff = .ok st1 ∧
              (Small st1 → Returns st1 r' [⟨did, d, one.blocks, xbuf⟩] (a.done ++ a.queue.flatten)) := by
  obtain ⟨sel, e, de, x, hx, h0⟩ := grid_lost hs hn hg hu
  refine ⟨sel, x, e, de, hx, ?_⟩
  intro cfg st a did d data r h hnd hw hr
  obtain ⟨g, inv⟩ := reach_inv h
  obtain ⟨st', _, h1, _⟩ := inv_write inv hw hr
  have h2 := Reach.write r _ h hw h1
  refine ⟨st', h1, h2, ?_⟩
  intro coll doff mdoff r' xbuf hcoll hf hf' hd hi hes hdims hin hr'
  have hc : Spec.Chosen d.ndim (.points [x]) [x] := by
    refine ⟨?_, rfl⟩
    intro p hp
    rw [List.mem_singleton] at hp
    rw [hp, hin.length_eq, DInfo.ndim]
  obtain ⟨one, e', de', hx', ho⟩ := select_ok hs hc (by simp [Spec.Supported])
  obtain ⟨q1, q2⟩ := select_req (q := ⟨did, d, one.blocks, xbuf⟩) hx' ho (by simpa using hin) hdims st'.compact
    (show (a.write r ⟨did, d, sel.blocks, data⟩).dsets[did]? = _ from hw.dset) hes
  obtain ⟨l1, l2, f1, _⟩ := flatten_modify (⟨did, d, sel.blocks, data⟩ : AW) a.queue r hr
  obtain ⟨st1, p1, p2⟩ := C02_readback_partial cfg h2 hcoll hf hf' hd (hi.served (by simp)) q1 q2 (r := r')
    (by simpa [AFile.write] using hr') (.inr (by simp [AFile.write, f1]))
  refine ⟨one, st1, by rw [← hnd]; exact e', p1, fun hsm => ?_⟩
  obtain ⟨n, hret⟩ := p2 hsm
  refine ⟨n, fun fuel hfu fill mem => ?_⟩
  obtain ⟨r1, r2⟩ := hret fuel hfu fill mem
  refine ⟨r1, fun out ho' => ?_⟩
  obtain ⟨mem', rfl, v⟩ := r2 out ho'
  refine ⟨mem', rfl, ?_, v.out⟩
  intro q hq i hib y hy k hk
  rw [v.val q hq i hib y hy k hk]
  rw [List.mem_singleton] at hq
  subst hq
  have hyx : y = x := by simpa using hx'.cover _ (List.getElem_mem hib) y hy
  subst hyx
  simp only [expected]
  rw [lastByte_lost hr (w := ⟨did, d, sel.blocks, data⟩) h0]

/-- The hyperslab of `C13_blocks_violated`, written to a dataset of a new file, meets all the hypotheses; the element of (1, 0, 0) is not
stored. -/
def loD : DInfo := ⟨[6, 6, 1], [some 6, some 6, some 1], 1⟩

def loW : AW := ⟨0, loD, hyOut, (List.range 16).map (fun i => UInt8.ofNat (i + 1))⟩

example : 0 < hyS.length ∧ GridOK hyS hyT hyC hyB ∧ ¬ Safe hyT hyC hyB ∧ timesIn hyOut [1, 0, 0] = 0 ∧
    List.Forall₂ (· < ·) [1, 0, 0] loD.dims ∧ InGrid hyS hyT hyC hyB [1, 0, 0] := by
  refine ⟨by decide, by simp [GridOK, hyS, hyT, hyC, hyB], by simp [Safe, Spec.Solid, Spec.Calm, hyT, hyC, hyB], by decide +kernel,
    by simp [loD], ?_⟩
  simp only [InGrid, hyS, hyT, hyC, hyB]
  exact ⟨⟨0, by omega⟩, ⟨0, by omega⟩, ⟨0, by omega⟩, trivial⟩

example (compact : Bool) (mbuf : Option Nat) :
    Reach ⟨false, false⟩ ((FState.create ⟨false, false⟩ compact mbuf 1 (fun _ => 0)).addDset loD) ((AFile.create 1).addDset loD) ∧
    MayWrite ⟨false, false⟩ ((AFile.create 1).addDset loD) 0 loW ∧ SeesQueue true (((AFile.create 1).addDset loD).write 0 loW) ∧
    Readable ⟨false, false⟩ compact (((AFile.create 1).addDset loD).write 0 loW).flush.metaflush 0 := by
  refine ⟨Reach.addDset _ (Reach.create compact mbuf 1 _ (by omega) (by omega)), ?_, .inl rfl, ?_⟩
  · refine ⟨⟨AW.Exact.sized (by unfold AW.Exact; decide), by decide, by decide, by decide, ⟨by decide, by decide, fun b hb => ⟨by revert b; decide, by revert b; decide, by revert b; decide, by revert b; decide⟩⟩, by decide, by simp, by decide⟩, rfl, by simp, ?_⟩
    intro p hp q hq
    simp [AFile.create, AFile.addDset] at hp hq
    subst hp hq
    simp
  · refine ⟨fun _ _ _ h => by simp at h, fun _ h => by simp at h, fun _ h => by simp at h, fun _ => ?_⟩
    intro p hp w hw _ _
    simp [AFile.create, AFile.addDset, AFile.write, AFile.flush, AFile.metaflush] at hp
    subst hp
    rw [List.mem_singleton] at hw
    subst hw
    decide

end Verif.Props
