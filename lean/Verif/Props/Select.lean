import Verif.Lemmas.Select
import Verif.Props.FileEx

/-
C50: reads through HDF5 selections return, element by element, what writes through HDF5 selections stored.  The theorems
join the normalisation of selections (C14) with the read-back theorems for blocks (C01, C02); `srt` is any behaviour of
`std::sort`.
-/

namespace Verif.Props
open Spec (AW UW AFile Chosen Supported Made ReturnsElems elemByte lastElem expectedElem Reach Fresh Small Indexable Readable Served RowMajor
  RowLt SpanTree GridOK InGrid gridBlocks)

/-- A write through a supported selection of existing cells, in any configuration that can record its blocks. -/
theorem select_write {srt : List (List Nat) → List Nat} (hs : IsSort srt) (cfg : Cfg) {st : FState} {a : AFile} (h : Reach cfg st a)
    {u : UW} (hu : u.OK) (hds : a.dsets[u.did]? = some (some u.d)) (hdid : u.did < 2 ^ 31) (hes : 0 < u.d.esize) (hne : u.cells ≠ [])
    (hlen : u.data.length = u.d.esize * u.cells.length) (hmax : u.data.length < 2 ^ 31)
    (hmeta : 48 + 8 * u.d.ndim + 16 * (u.d.ndim * u.cells.length) < 2 ^ 31) {r : Nat} (hr : r < a.queue.length)
    (hnum : ∀ p, a.epoch[r]? = some p → ∀ q, a.queue[r]? = some q → (p ++ q).length + 1 < 2 ^ 31)
    (henc : ∀ w, Made srt w u → cfg.selEncode = true → 1 < w.bs.length → Spec.Expressible w)
    (hmix : ∀ w, Made srt w u → cfg.share = true → cfg.selEncode = true → ∀ p, a.epoch[r]? = some p → ∀ q, a.queue[r]? = some q →
      ∀ w' ∈ p ++ q, 1 < w.bs.length → 1 < w'.bs.length → (Spec.Confined w ↔ Spec.Confined w')) :
    ∃ s st', selections srt u.d.ndim u.sel = .ok s ∧ s.destroy u.d.ndim = .ok () ∧
      st.write r u.did s.blocks u.data = .ok st' ∧ Reach cfg st' (a.write r ⟨u.did, u.d, s.blocks, u.data⟩) ∧
      Made srt ⟨u.did, u.d, s.blocks, u.data⟩ u := by
  obtain ⟨s, e, d, hx, _⟩ := select_ok hs hu.chosen hu.supp
  obtain ⟨c1, c2⟩ := hx.count_le
  have hb := hx.bounds hu.within hu.dims
  have hpos : 0 < u.cells.length := List.length_pos_iff.mpr hne
  have hcl : u.cells.length ≤ u.data.length := by
    rw [hlen]
    exact Nat.le_mul_of_pos_left _ hes
  have hmade : Made srt ⟨u.did, u.d, s.blocks, u.data⟩ u := ⟨hu, rfl, rfl, rfl, s, e, rfl⟩
  have hw : Spec.MayWrite cfg a r ⟨u.did, u.d, s.blocks, u.data⟩ := by
    refine ⟨⟨?_, ?_, hmax, hdid, ⟨?_, by simp only; omega, ?_⟩, ?_, henc _ hmade, ?_⟩, hds, hmix _ hmade, hnum⟩
    · exact AW.Exact.sized (by simp only [AW.Exact, hlen, c2])
    · simp only
      intro hn
      rw [hn, List.length_nil] at hcl
      omega
    · simp only
      intro hn
      rw [hn] at c2
      simp at c2
      omega
    · intro b hb'
      obtain ⟨l1, l2, _⟩ := hx.shape b hb'
      refine ⟨l1, l2, fun x h => ?_, fun x h => ?_⟩
      · have := (hb b hb').2 x h
        omega
      · have := (hb b hb').1 x h
        omega
    · simp only
      have := Nat.mul_le_mul_left u.d.ndim c1
      omega
    · intro b hb'
      exact (hb b hb').1
  obtain ⟨g, inv⟩ := reach_inv h
  obtain ⟨st', _, h1, _⟩ := inv_write inv hw hr
  exact ⟨s, st', e, d, h1, Reach.write r _ h hw h1, hmade⟩

/-- **C50, write.** Plain metadata.  After any history a write through a supported selection of existing cells, with one
element for each cell, is accepted; the history continues with a write of the log made for it, and the selection object is
destroyed without error.  Limits: 2 GiB of data, and of metadata if every cell were a block of its own. -/
theorem C50_write_partial {srt : List (List Nat) → List Nat} (hs : IsSort srt) (cfg : Cfg) (hsh : cfg.share = false)
    (hse : cfg.selEncode = false) {st : FState} {a : AFile} (h : Reach cfg st a) {u : UW} (hu : u.OK)
    (hds : a.dsets[u.did]? = some (some u.d)) (hdid : u.did < 2 ^ 31) (hes : 0 < u.d.esize) (hne : u.cells ≠ [])
    (hlen : u.data.length = u.d.esize * u.cells.length) (hmax : u.data.length < 2 ^ 31)
    (hmeta : 48 + 8 * u.d.ndim + 16 * (u.d.ndim * u.cells.length) < 2 ^ 31) {r : Nat} (hr : r < a.queue.length)
    (hnum : ∀ p, a.epoch[r]? = some p → ∀ q, a.queue[r]? = some q → (p ++ q).length + 1 < 2 ^ 31) :
    ∃ s st', selections srt u.d.ndim u.sel = .ok s ∧ s.destroy u.d.ndim = .ok () ∧
      st.write r u.did s.blocks u.data = .ok st' ∧ Reach cfg st' (a.write r ⟨u.did, u.d, s.blocks, u.data⟩) ∧
      Made srt ⟨u.did, u.d, s.blocks, u.data⟩ u := by
  exact select_write hs cfg h hu hds hdid hes hne hlen hmax hmeta hr hnum (by simp [hse]) (by simp [hsh])

/-- **C50, read, partial: supported selections, plain metadata.** If the writes of the history (queued ones included) were
made through supported selections, then a collective read through a supported selection of existing cells succeeds, and
element number `k` of the buffer is the one that the last write to the `k`-th selected cell stored, else the fill value,
else what was in the buffer; nothing else is changed.  Full statement: all selections; see `C14_hyperslab_violated`,
`C14_points_violated` and `C44_view_violated`. -/
theorem C50_read_partial {srt : List (List Nat) → List Nat} (hs : IsSort srt) (cfg : Cfg) (hsh : cfg.share = false)
    (hse : cfg.selEncode = false) {st : FState} {a : AFile} (h : Reach cfg st a)
    {coll : Bool} (hcoll : Spec.SeesQueue coll a) {doff mdoff : Nat} (hf : Fresh st doff)
    (hf' : Fresh st mdoff) (hd : doff + Spec.queued a ≤ mdoff) {us : List UW}
    (hu : List.Forall₂ (Made srt) (a.done ++ a.queue.flatten) us) {did : Nat} {d : DInfo}
    (hds : a.dsets[did]? = some (some d)) (hes : 0 < d.esize) (hdims : ∀ m ∈ d.dims, m < 2 ^ 31) {sel : H5Sel}
    {xs : List (List Nat)} (hc : Chosen d.ndim sel xs) (hp : Supported d.ndim sel)
    (hw : ∀ x ∈ xs, List.Forall₂ (· < ·) x d.dims) (xbuf : Nat) {r : Nat} (hr : r < a.queue.length)
    (hm : st.mbuf = none ∨ us ≠ []) :
    ∃ s st1, selections srt d.ndim sel = .ok s ∧ s.destroy d.ndim = .ok () ∧ st.prepare coll doff mdoff = .ok st1 ∧
      (Small st1 → ReturnsElems st1 r ⟨did, d, s.blocks, xbuf⟩ xs us) := by
  obtain ⟨s, e, de, hx, ho⟩ := select_ok hs hc hp
  obtain ⟨q1, q2⟩ := select_req (q := ⟨did, d, s.blocks, xbuf⟩) hx ho hw hdims st.compact hds hes
  have hm' : st.mbuf = none ∨ a.done ++ a.queue.flatten ≠ [] := by
    refine hm.imp_right (fun hn he => ?_)
    rw [he] at hu
    cases hu
    exact hn rfl
  obtain ⟨st1, h1, h2⟩ := C01_readback_partial cfg hsh hse h hcoll hf hf' hd (fun _ => made_heads hs hu) q1 q2 hr hm'
  exact ⟨s, st1, e, de, h1, fun hsm => returns_elems hs hu hx (h2 hsm)⟩

/-- **C50 for histories that can be indexed**, any combination of metadata sharing and selection encoding (in particular the
default). -/
theorem C50_shared_partial {srt : List (List Nat) → List Nat} (hs : IsSort srt) (cfg : Cfg)
    {st : FState} {a : AFile} (h : Reach cfg st a)
    {coll : Bool} (hcoll : Spec.SeesQueue coll a) {doff mdoff : Nat} (hf : Fresh st doff)
    (hf' : Fresh st mdoff) (hd : doff + Spec.queued a ≤ mdoff) {did : Nat}
    (hi : Readable cfg st.compact a.flush.metaflush did)
    {us : List UW} (hu : List.Forall₂ (Made srt) (a.done ++ a.queue.flatten) us) {d : DInfo}
    (hds : a.dsets[did]? = some (some d)) (hes : 0 < d.esize) (hdims : ∀ m ∈ d.dims, m < 2 ^ 31) {sel : H5Sel}
    {xs : List (List Nat)} (hc : Chosen d.ndim sel xs) (hp : Supported d.ndim sel)
    (hw : ∀ x ∈ xs, List.Forall₂ (· < ·) x d.dims) (xbuf : Nat) {r : Nat} (hr : r < a.queue.length)
    (hm : st.mbuf = none ∨ us ≠ []) :
    ∃ s st1, selections srt d.ndim sel = .ok s ∧ s.destroy d.ndim = .ok () ∧ st.prepare coll doff mdoff = .ok st1 ∧
      (Small st1 → ReturnsElems st1 r ⟨did, d, s.blocks, xbuf⟩ xs us) := by
  obtain ⟨s, e, de, hx, ho⟩ := select_ok hs hc hp
  obtain ⟨q1, q2⟩ := select_req (q := ⟨did, d, s.blocks, xbuf⟩) hx ho hw hdims st.compact hds hes
  have hm' : st.mbuf = none ∨ a.done ++ a.queue.flatten ≠ [] := by
    refine hm.imp_right (fun hn he => ?_)
    rw [he] at hu
    cases hu
    exact hn rfl
  obtain ⟨st1, h1, h2⟩ := C02_readback_partial cfg h hcoll hf hf' hd (hi.served (by simp)) q1 q2 hr hm'
  exact ⟨s, st1, e, de, h1, fun hsm => returns_elems hs hu hx (h2 hsm)⟩

/-- **C50, after closing and opening the file.** -/
theorem C50_reopen_partial {srt : List (List Nat) → List Nat} (hs : IsSort srt) (cfg : Cfg)
    {st : FState} {a : AFile} (h : Reach cfg st a) {doff mdoff : Nat} (hf : Fresh st doff)
    (hf' : Fresh st mdoff) (hd : doff + Spec.queued a ≤ mdoff) {np : Nat} (h0 : 0 < np) (h1 : np < 2 ^ 31)
    (compact : Bool) (mbuf : Option Nat) (gone : Nat → Bool)
    {did : Nat} (hi : Readable cfg compact (a.flush.metaflush.reopen np gone) did)
    {us : List UW} (hu : List.Forall₂ (Made srt) (a.done ++ a.queue.flatten) us) {d : DInfo}
    (hds : a.dsets[did]? = some (some d)) (hg : gone did = false) (hes : 0 < d.esize) (hdims : ∀ m ∈ d.dims, m < 2 ^ 31)
    {sel : H5Sel} {xs : List (List Nat)} (hc : Chosen d.ndim sel xs) (hp : Supported d.ndim sel)
    (hw : ∀ x ∈ xs, List.Forall₂ (· < ·) x d.dims) (xbuf : Nat) {r : Nat} (hr : r < np) (hm : mbuf = none ∨ us ≠ []) :
    ∃ s st1, selections srt d.ndim sel = .ok s ∧ s.destroy d.ndim = .ok () ∧ st.close doff mdoff = .ok st1 ∧
      (Small st1 → ReturnsElems (st1.reopen np compact mbuf gone) r ⟨did, d, s.blocks, xbuf⟩ xs us) := by
  obtain ⟨s, e, de, hx, ho⟩ := select_ok hs hc hp
  have hds' : (a.dsets.mapIdx (fun i o => if gone i then none else o))[did]? = some (some d) := by
    rw [List.getElem?_mapIdx, hds]
    simp [hg]
  obtain ⟨q1, q2⟩ := select_req (q := ⟨did, d, s.blocks, xbuf⟩) hx ho hw hdims compact hds' hes
  have hm' : mbuf = none ∨ a.done ++ a.queue.flatten ≠ [] := by
    refine hm.imp_right (fun hn he => ?_)
    rw [he] at hu
    cases hu
    exact hn rfl
  obtain ⟨st1, h2, h3⟩ := C21_close_partial cfg h hf hf' hd h0 h1 compact mbuf gone (hi.served (by simp)) q1 q2 hr hm'
  exact ⟨s, st1, e, de, h2, fun hsm => returns_elems hs hu hx (h3 hsm)⟩

/-! ### A case that meets the hypotheses -/

/-- A 4 × 6 dataset; a strided hyperslab is written, then three points, and a row is read. -/
def swD : DInfo := ⟨[4, 6], [some 4, some 6], 1⟩

/-- Rows 0 and 2, columns 1, 2 and 4, 5.  (The blocks of the last dimension have space between them.) -/
def swA : UW := ⟨0, swD, .hyper (some ⟨[0, 1], [2, 3], [2, 2], [1, 2]⟩) (gridBlocks [0, 1] [2, 3] [2, 2] [1, 2]),
  [[0, 1], [0, 2], [0, 4], [0, 5], [2, 1], [2, 2], [2, 4], [2, 5]], [1, 2, 3, 4, 5, 6, 7, 8]⟩

/-- Points. -/
def swB : UW := ⟨0, swD, .points [[0, 0], [2, 2], [3, 5]], [[0, 0], [2, 2], [3, 5]], [11, 12, 13]⟩

theorem swGrid (x y : Nat) : InGrid [0, 1] [2, 3] [2, 2] [1, 2] [x, y] ↔
    (x = 0 ∨ x = 2) ∧ (y = 1 ∨ y = 2 ∨ y = 4 ∨ y = 5) := by
  simp only [InGrid, and_true]
  constructor
  · rintro ⟨⟨i, hi, h1⟩, j, hj, h2⟩
    have : i = 0 ∨ i = 1 := by omega
    have : j = 0 ∨ j = 1 := by omega
    constructor <;> rcases ‹i = 0 ∨ i = 1› with rfl | rfl <;> rcases ‹j = 0 ∨ j = 1› with rfl | rfl <;> omega
  · rintro ⟨h1, h2⟩
    refine ⟨?_, ?_⟩
    · rcases h1 with rfl | rfl
      · exact ⟨0, by omega⟩
      · exact ⟨1, by omega⟩
    · rcases h2 with rfl | rfl | rfl | rfl
      · exact ⟨0, by omega⟩
      · exact ⟨0, by omega⟩
      · exact ⟨1, by omega⟩
      · exact ⟨1, by omega⟩

theorem swA_ok : swA.OK where
  chosen := by
    refine ⟨rfl, by simp [GridOK], rfl, by simp [swA, RowLt], ?_⟩
    intro x
    match x with
    | [] => simp [swA, InGrid]
    | [_] => simp [swA, InGrid]
    | [x, y] =>
      simp only [swGrid]
      simp only [swA, List.mem_cons, List.cons.injEq, and_true, List.not_mem_nil, or_false]
      omega
    | _ :: _ :: _ :: _ => simp [swA, InGrid]
  supp := by
    refine ⟨by decide, ?_⟩
    simp [Spec.Safe, Spec.Solid, Spec.Quiet]
  within := by simp [swA, swD]
  dims := by simp [swA, swD]

theorem swB_ok : swB.OK where
  chosen := by refine ⟨?_, rfl⟩; simp [swB, swD, DInfo.ndim]
  supp := by simp [swB, Supported, RowLt]
  within := by simp [swB, swD]
  dims := by simp [swB, swD]

/-- The history that writes `swA` in process 1 and then `swB` in process 0 of a new file meets the hypotheses of
`C50_read_partial`.  At the flush the write of process 0 comes first, so that cell (2, 2) has the element 6 of `swA`. -/
theorem sw_case {srt : List (List Nat) → List Nat} (hs : IsSort srt) (cfg : Cfg) (hsh : cfg.share = false)
    (hse : cfg.selEncode = false) (compact : Bool) (mbuf : Option Nat) :
    ∃ st a, Reach cfg st a ∧ a.queue.length = 2 ∧ a.dsets[0]? = some (some swD) ∧
      List.Forall₂ (Made srt) (a.done ++ a.queue.flatten) [swB, swA] := by
  have h0 : Reach cfg ((FState.create cfg compact mbuf 2 (fun _ => 0)).addDset swD) ((AFile.create 2).addDset swD) :=
    Reach.addDset swD (Reach.create compact mbuf 2 _ (by omega) (by omega))
  obtain ⟨s, st, _, _, _, h1, m1⟩ := C50_write_partial hs cfg hsh hse h0 swA_ok rfl (by decide) (by decide) (by decide)
    rfl (by decide) (by decide) (r := 1) (by decide) (by
      intro p hp q hq
      simp [AFile.create, AFile.addDset] at hp hq
      subst hp hq
      simp)
  obtain ⟨s', st', _, _, _, h2, m2⟩ := C50_write_partial hs cfg hsh hse h1 swB_ok rfl (by decide) (by decide) (by decide)
    rfl (by decide) (by decide) (r := 0) (by simp [AFile.write, AFile.create, AFile.addDset]) (by
      intro p hp q hq
      simp [AFile.create, AFile.addDset, AFile.write] at hp hq
      subst hp hq
      simp)
  refine ⟨st', _, h2, by simp [AFile.write, AFile.create, AFile.addDset], rfl, ?_⟩
  simp only [AFile.write, AFile.create, AFile.addDset, List.nil_append]
  exact .cons m2 (.cons m1 .nil)

example : (List.range 6).map (fun y => lastElem [swB, swA] 0 [2, y] 0) =
    [none, some 5, some 6, none, some 7, some 8] := by decide +kernel

end Verif.Props
