import Verif.Lemmas.ApiCalls
import Verif.Props.ReadOnly

/-
C68: H5Dwrite and H5Dread with dataspaces of the file and of memory, over all sequences of calls and in all configurations.  With
metadata sharing or selection encoding (both are on by default) writes must be such that they can be recorded (`UFile.Allows`) and indexed
(`UFile.Indexed`); without, these conditions are empty (`allows_plain`, `indexed_plain`).  `srt` is any behaviour of `std::sort`.
-/

namespace Verif.Props
open Verif.Spec (UW UFile Calls Xfer GetsAll Fresh Small Made bytesAt lastElem Chosen Supported RowMajor RowLt GridOK InGrid gridBlocks)

/-- **C68, write.** After any sequence of calls, H5Dwrite is accepted; what is written are the elements at the selected addresses of
memory, in the order of the selection. -/
theorem C68_write {srt : List (List Nat) → List Nat} (hs : IsSort srt) {cfg : Cfg} {st : FState} {u : UFile} (h : Calls srt cfg st u) {r did : Nat} {d : DInfo} {f : FArg} {m : MArg}
    {ubuf : Nat} (mem : Mem) {xs : List (List Nat)} {as : List Nat} (hr : r < u.queue.length) (hd : u.dsets[did]? = some (some d))
    (hx : Xfer d f m ubuf xs as) (hne : xs ≠ []) (hf : u.Fits did d xs)
    (ha : u.Allows cfg ⟨did, d, (Verif.Spec.fileSpace d f).2, xs, bytesAt d.esize mem as⟩) :
    ∃ st', st.h5dwrite srt r did f m ubuf mem = .ok st' ∧
      Calls srt cfg st' (u.write r ⟨did, d, (Verif.Spec.fileSpace d f).2, xs, bytesAt d.esize mem as⟩) := by
  obtain ⟨a, h1, h2⟩ := calls_reach hs h
  obtain ⟨st', w, e1, _, _⟩ := h5dwrite_ok hs h1 h2 mem hr hd hx hne hf ha
  exact ⟨st', e1, .write r did d f m ubuf mem xs as h hr hd hx hne hf ha e1⟩

/-- **C68, write of nothing.** -/
theorem C68_write_none {srt : List (List Nat) → List Nat} (hs : IsSort srt) {cfg : Cfg} {st : FState} {u : UFile} (h : Calls srt cfg st u) (r : Nat) {did : Nat} {d : DInfo} {f : FArg} {m : MArg}
    {ubuf : Nat} (mem : Mem) {as : List Nat} (hd : u.dsets[did]? = some (some d)) (hx : Xfer d f m ubuf [] as) :
    st.h5dwrite srt r did f m ubuf mem = .ok st := by
  obtain ⟨a, h1, h2⟩ := calls_reach hs h
  obtain ⟨g, inv⟩ := reach_inv h1
  obtain ⟨s, e1, e2, hex, -⟩ := select_ok hs hx.chosen hx.supp
  unfold FState.h5dwrite
  rw [inv.dsets, h2.dsets, hd]
  simp only
  rw [resolve_eq, e1, Res.ok_bind, if_pos ((nsel_zero hex).mpr rfl), e2]
  rfl

/-- **C68, read.** After any sequence of calls by one process, or by several with nothing queued, H5Dread succeeds for every process;
the element at each selected address of memory is the one last written to the cell, else the fill value.  What other processes have read
in the meantime makes no difference.  `mbuf`: with a limit on the metadata kept in memory something must have been written. -/
theorem C68_read {srt : List (List Nat) → List Nat} (hs : IsSort srt) {cfg : Cfg} {st : FState} {u : UFile} (h : Calls srt cfg st u) (hq : u.queue.length = 1 ∨ u.queue.flatten = [])
    (asked : Bool) {doff mdoff : Nat} (hf : Fresh st doff) (hf' : Fresh st mdoff) (hd : doff + u.size ≤ mdoff)
    (hm : st.mbuf = none ∨ u.all ≠ []) :
    ∃ st1, st.dread asked doff mdoff = .ok st1 ∧ (Small st1 → ∀ st2, st1.Searches st2 →
      Calls srt cfg st2 u.flush ∧ ∀ r < u.queue.length, ∀ did d f m ubuf xs as, u.dsets[did]? = some (some d) → u.Indexed cfg st.compact did →
        Xfer d f m ubuf xs as → GetsAll srt st2 u.all r did d f m ubuf xs as) := by
  obtain ⟨a, h1, h2⟩ := calls_reach hs h
  obtain ⟨g, inv⟩ := reach_inv h1
  have hq' : a.queue.length = 1 ∨ a.queue.flatten = [] := by rw [h2.len, h2.empty]; exact hq
  have hd' : doff + Verif.Spec.queued a ≤ mdoff := by rw [h2.size]; exact hd
  obtain ⟨st1, e1, _⟩ := inv_prepare inv hf hf' hd' (coll := fileMode) (.inr (hq'.imp_right .inr))
  refine ⟨st1, e1, fun hsm st2 hst2 => ⟨.read asked doff mdoff h hq hf hf' hd e1 hsm hst2, ?_⟩⟩
  have h3 := Verif.Spec.Reach.prepare fileMode doff mdoff h1 hf hf' hd' (.inr (hq'.imp_right .inr)) e1 hsm
  obtain ⟨h4, sf⟩ := searches_reach h3 (prepared_epoch _ _) hst2
  have hp := rep_prepare h1 (coll := fileMode) (.inr hq')
  have hall : List.Forall₂ (Made srt) (a.prepare fileMode).done u.all := by
    rw [hp]
    exact h2.all
  have hidx : ∀ {did d}, u.dsets[did]? = some (some d) → u.Indexed cfg st.compact did → Verif.Spec.Readable cfg st2.compact (a.prepare fileMode) did := by
    intro did d hds hi
    rw [sf.conf.2.1, (prepare_same e1).1]
    have he : (a.prepare fileMode).dsets = u.dsets := by
      rw [hp]
      exact h2.dsets
    have e : (⟨u.dsets, u.all, []⟩ : UFile).all = u.all := List.append_nil _
    obtain ⟨i1, i2, i3⟩ := hi
    refine rep_readable hs h4 (prepared_epoch _ _) hall (q := []) ?_ rfl ?_
    · rw [he]
      exact ⟨by rw [e]; exact i1, by rw [e]; exact i2, by rw [e]; exact i3⟩
    · rw [he]
      simp [Verif.Spec.present, hds]
  intro r hr did d f m ubuf xs as hds hi hx
  refine h5dread_ok hs h4 (prepared_epoch _ _) hall (hidx hds hi) ?_ ?_ hx ?_
  · rw [hp]
    simp only [Verif.Spec.AFile.metaflush, Verif.Spec.AFile.flush, List.length_map]
    rw [h2.len]
    exact hr
  · rw [hp]
    simp only [Verif.Spec.AFile.metaflush, Verif.Spec.AFile.flush]
    rw [h2.dsets]
    exact hds
  · rw [sf.conf.2.2, (prepare_same e1).2]
    exact hm

/-- **C68, flush.** H5Fflush succeeds at any time. -/
theorem C68_flush {srt : List (List Nat) → List Nat} (hs : IsSort srt) {cfg : Cfg} {st : FState} {u : UFile} (h : Calls srt cfg st u) {doff : Nat} (hf : Fresh st doff)
    (hd : doff + u.size < 2 ^ 63) : ∃ st', st.fileFlush doff = .ok st' ∧ Calls srt cfg st' u.flush := by
  obtain ⟨a, h1, h2⟩ := calls_reach hs h
  obtain ⟨st', e1, e2, _, _, _, e6, _⟩ := reach_flush h1 hf (by rw [h2.size]; exact hd)
  obtain ⟨g, inv⟩ := reach_inv h1
  refine ⟨st', e1, .flush doff h hf e1 ?_⟩
  intro e he
  rcases List.mem_append.mp he with he | he
  · rcases e6 e he with he | rfl
    · exact inv.small e (by simp [he])
    · simp only
      rw [h2.size]
      exact hd
  · rw [e2] at he
    exact inv.small e (by simp [he])

/-- **C68, close and open.** H5Fclose succeeds at any time.  After the file has been opened, by any number of processes, the sequence
goes on with everything written (`C68_read`). -/
theorem C68_reopen {srt : List (List Nat) → List Nat} (hs : IsSort srt) {cfg : Cfg} {st : FState} {u : UFile} (h : Calls srt cfg st u) {doff mdoff : Nat} (hf : Fresh st doff)
    (hf' : Fresh st mdoff) (hd : doff + u.size ≤ mdoff) {np : Nat} (h0 : 0 < np) (h1 : np < 2 ^ 31) (compact : Bool) (mbuf : Option Nat)
    (gone : Nat → Bool) :
    ∃ st', st.close doff mdoff = .ok st' ∧ (Small st' → Calls srt cfg (st'.reopen np compact mbuf gone)
      ⟨u.dsets.mapIdx (fun i o => if gone i then none else o), u.all, List.replicate np []⟩) := by
  obtain ⟨a, r1, r2⟩ := calls_reach hs h
  obtain ⟨g, inv⟩ := reach_inv r1
  obtain ⟨st2, e, _⟩ := inv_close inv hf hf' (by rw [r2.size]; exact hd)
  exact ⟨_, e, fun hsm => .reopen doff mdoff np compact mbuf gone h hf hf' hd h0 h1 e hsm⟩

/-! ### A case that meets the hypotheses

A 4 × 6 dataset of 2-byte elements.  Rows 0 and 2, columns 1, 2, 4, 5 are written from every other element of an array of 20, and three
points are read into three elements of a 2 × 3 array. -/

def apD : DInfo := ⟨[4, 6], [some 4, some 6], 2⟩

def apF : FArg := .space [4, 6] (.hyper (some ⟨[0, 1], [2, 3], [2, 2], [1, 2]⟩) (gridBlocks [0, 1] [2, 3] [2, 2] [1, 2]))

def apM : MArg := .space [20] (.hyper (some ⟨[1], [2], [8], [1]⟩) (gridBlocks [1] [2] [8] [1]))

def apXs : List (List Nat) := [[0, 1], [0, 2], [0, 4], [0, 5], [2, 1], [2, 2], [2, 4], [2, 5]]

def apAs : List Nat := (List.range 8).map (fun i => 1000 + 2 * (1 + 2 * i))

theorem ap_write : Xfer apD apF apM 1000 apXs apAs where
  chosen := swA_ok.chosen
  supp := swA_ok.supp
  within := swA_ok.within
  dims := by simp [apD]
  es := by decide
  mem := by
    refine ⟨(List.range 8).map (fun i => [1 + 2 * i]), ⟨rfl, by simp [GridOK], rfl, by simp [List.range_succ, RowLt], ?_⟩, ?_, rfl, ?_⟩
    · intro x
      match x with
      | [] => simp [InGrid]
      | [x] =>
        simp only [List.mem_map, List.mem_range, InGrid, List.cons.injEq, and_true]
        exact ⟨fun ⟨i, h1, h2⟩ => ⟨i, h1, by omega⟩, fun ⟨i, h1, h2⟩ => ⟨i, h1, by omega⟩⟩
      | _ :: _ :: _ => simp [InGrid]
    · simp [List.range_succ]
    · decide +kernel
  ok := .inr ⟨by simp, by simp, by simp, by decide, .inl trivial⟩

def apF' : FArg := .space [4, 6] (.points [[0, 0], [2, 2], [2, 5]])

def apM' : MArg := .space [2, 3] (.points [[0, 1], [1, 0], [1, 2]])

theorem ap_read : Xfer apD apF' apM' 2000 [[0, 0], [2, 2], [2, 5]] [2002, 2006, 2010] where
  chosen := by refine ⟨?_, rfl⟩; simp [apD, DInfo.ndim]
  supp := by simp [apF', Verif.Spec.fileSpace, Supported, RowLt]
  within := by simp [apD]
  dims := by simp [apD]
  es := by decide
  mem := ⟨[[0, 1], [1, 0], [1, 2]], ⟨by simp, rfl⟩, by simp, rfl, by decide +kernel⟩
  ok := .inr ⟨by simp, by simp, by simp, by simp [Supported, RowLt]⟩

/-- Any configuration can record the write: no complete row is selected. -/
theorem ap_allows (cfg : Cfg) {u : UFile} (hu : ∀ v ∈ u.all, ¬ v.InRecord) (data : List Byte) :
    u.Allows cfg ⟨0, apD, (Verif.Spec.fileSpace apD apF).2, apXs, data⟩ := by
  refine ⟨fun _ => .inr ⟨show prod apD.dims < 2 ^ 63 by decide, .inl ?_⟩, fun _ _ v hv => .inr (.inr ?_)⟩
  · intro i hi h x hx
    simp only [apD, List.length_cons, List.length_nil] at h
    obtain rfl : i = 1 := by omega
    exact ⟨0, show 0 < 6 by decide, (show ∀ x ∈ apXs, x.set 1 0 ∉ apXs by decide) x hx⟩
  · have h1 : ¬ (⟨0, apD, (Verif.Spec.fileSpace apD apF).2, apXs, data⟩ : UW).InRecord := fun h => by simp [apD] at h; exact absurd h.1 (by simp)
    exact iff_of_false h1 (hu v hv)

/-- Without two writes there is nothing to share. -/
theorem indexed_one {cfg : Cfg} {compact : Bool} {did : Nat} {u : UFile} (h : u.all.length ≤ 1) : u.Indexed cfg compact did := by
  have : ∀ P : UW → UW → Prop, u.all.Pairwise P := by
    intro P
    match u.all, h with
    | [], _ => exact .nil
    | [x], _ => exact List.pairwise_singleton _ _
  exact ⟨fun _ => this _, fun _ _ => this _, fun _ _ => this _⟩

/-- Without sharing there is no condition on the writes. -/
theorem indexed_plain {cfg : Cfg} (hs : cfg.share = false) (compact : Bool) (did : Nat) (u : UFile) : u.Indexed cfg compact did :=
  ⟨by simp [hs], by simp [hs], by simp [hs]⟩

/-- Without sharing and encoding there is no condition on a write. -/
theorem allows_plain {cfg : Cfg} (hs : cfg.selEncode = false) (u : UFile) (w : UW) : u.Allows cfg w :=
  ⟨by simp [hs], by simp [hs]⟩

/-- A file of one process with the write queued, in any configuration. -/
theorem ap_case {srt : List (List Nat) → List Nat} (hs : IsSort srt) (cfg : Cfg) (compact : Bool) (mbuf : Option Nat) (mem : Mem) :
    ∃ st, Calls srt cfg st ⟨[some apD], [], [[⟨0, apD, (Verif.Spec.fileSpace apD apF).2, apXs, bytesAt 2 mem apAs⟩]]⟩ := by
  have h0 := Calls.dset apD (Calls.create (srt := srt) (cfg := cfg) compact mbuf 1 (fun _ => 0) (by decide) (by decide))
  obtain ⟨st, _, h⟩ := C68_write hs h0 mem (r := 0) (did := 0) (by decide) rfl ap_write (by decide)
    ⟨by decide, by decide, by decide, by decide⟩ (ap_allows cfg (by simp [UFile.all]) _)
  exact ⟨st, h⟩

theorem fresh_exists (st : FState) : ∃ n, ∀ p, n ≤ p → Fresh st p := by
  refine ⟨((st.lds ++ st.mds).map (fun e => e.addr + e.size)).sum, fun p hp e he => ?_⟩
  have := le_sum_mem (List.mem_map_of_mem (f := fun e : Ext => e.addr + e.size) he)
  omega

/-- The points are read, and read again by two processes after the file has been closed and opened. -/
example {srt : List (List Nat) → List Nat} (hs : IsSort srt) (cfg : Cfg) (compact : Bool) (mbuf : Option Nat) (mem : Mem) :
    ∃ (st : FState) (doff mdoff : Nat) (st1 : FState), st.cfg = cfg ∧ st.dread true doff mdoff = .ok st1 ∧ (Small st1 →
      GetsAll srt st1 [⟨0, apD, (Verif.Spec.fileSpace apD apF).2, apXs, bytesAt 2 mem apAs⟩] 0 0 apD apF' apM' 2000 [[0, 0], [2, 2], [2, 5]]
        [2002, 2006, 2010] ∧
      ∃ doff' mdoff' st2, st1.close doff' mdoff' = .ok st2 ∧ (Small st2 → ∃ st3 doff mdoff,
        (st2.reopen 2 compact mbuf (fun _ => false)).dread true doff mdoff = .ok st3 ∧ (Small st3 →
          GetsAll srt st3 [⟨0, apD, (Verif.Spec.fileSpace apD apF).2, apXs, bytesAt 2 mem apAs⟩] 1 0 apD apF' apM' 2000 [[0, 0], [2, 2], [2, 5]]
            [2002, 2006, 2010]))) := by
  obtain ⟨st, h⟩ := ap_case hs cfg compact mbuf mem
  obtain ⟨n, hn⟩ := fresh_exists st
  obtain ⟨st1, e1, k1⟩ := C68_read hs h (.inl rfl) true (hn n (Nat.le_refl _)) (hn (n + _) (Nat.le_add_right _ _))
    (Nat.le_refl _) (.inr (by simp [UFile.all]))
  refine ⟨st, _, _, st1, ?_, e1, fun hsm => ?_⟩
  · obtain ⟨a, ha, _⟩ := calls_reach hs h
    obtain ⟨g, inv⟩ := reach_inv ha
    exact inv.cfgEq
  obtain ⟨h1, g1⟩ := k1 hsm st1 (.refl st1)
  refine ⟨g1 0 (by simp) 0 apD _ _ _ _ _ rfl (indexed_one (by simp [UFile.all])) ap_read, ?_⟩
  obtain ⟨n1, hn1⟩ := fresh_exists st1
  obtain ⟨st2, e2, k2⟩ := C68_reopen hs h1 (hn1 n1 (Nat.le_refl _)) (hn1 (n1 + _) (Nat.le_add_right _ _)) (Nat.le_refl _)
    (np := 2) (by decide) (by decide) compact mbuf (fun _ => false)
  refine ⟨_, _, st2, e2, fun hsm2 => ?_⟩
  have h2 := k2 hsm2
  obtain ⟨n2, hn2⟩ := fresh_exists (st2.reopen 2 compact mbuf (fun _ => false))
  obtain ⟨st3, e3, k3⟩ := C68_read hs h2 (.inr rfl) true (hn2 n2 (Nat.le_refl _)) (hn2 (n2 + _) (Nat.le_add_right _ _))
    (Nat.le_refl _) (.inr (by simp [UFile.all, UFile.flush]))
  exact ⟨st3, _, _, e3, fun hsm3 => (k3 hsm3 st3 (.refl st3)).2 1 (by simp) 0 apD _ _ _ _ _ rfl (indexed_one (by simp [UFile.all, UFile.flush])) ap_read⟩

/-- What `C68_read` says about it: the third point read is the eighth element written. -/
example (mem : Mem) (j : Nat) (hj : j < 2) :
    lastElem [⟨0, apD, (Verif.Spec.fileSpace apD apF).2, apXs, bytesAt 2 mem apAs⟩] 0 [2, 5] j = some (mem (1030 + j)) := by
  match j, hj with
  | 0, _ => rfl
  | 1, _ => rfl

example (mem : Mem) (j : Nat) :
    lastElem [⟨0, apD, (Verif.Spec.fileSpace apD apF).2, apXs, bytesAt 2 mem apAs⟩] 0 [0, 0] j = none := rfl

end Verif.Props
