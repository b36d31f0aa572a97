import Verif.Props.Api

/-
C69: the content of a file does not depend on how writes to different cells are distributed over processes, on their order, on flushes,
reads and reopening in between, or on the number of processes.
-/

namespace Verif.Props
open Verif.Spec (UW UFile Calls Xfer GetsAll Fresh Small lastElem elemByte bytesAt Supported RowLt)

/-- The writes have no cell in common. -/
def Apart (a b : UW) : Prop := a.did = b.did → ∀ x ∈ a.cells, x ∉ b.cells

theorem elemByte_mem {u : UW} {x : List Nat} {k : Nat} {v : Byte} (h : elemByte u x k = some v) : x ∈ u.cells := by
  unfold elemByte at h
  obtain ⟨i, hi, _⟩ := Option.bind_eq_some_iff.mp h
  obtain ⟨hl, hp, _⟩ := List.findIdx?_eq_some_iff_getElem.mp hi
  rw [← of_decide_eq_true hp]
  exact List.getElem_mem _

/-- At most one of the writes stores the byte. -/
theorem apart_one {us : List UW} (h : us.Pairwise Apart) (did : Nat) (x : List Nat) (k : Nat) :
    ((us.filter (fun u => decide (u.did = did))).filterMap (fun u => elemByte u x k)).length ≤ 1 := by
  induction us with
  | nil => simp
  | cons u us ih =>
    rw [List.pairwise_cons] at h
    rw [List.filter_cons]
    split
    · rename_i hd
      rw [List.filterMap_cons]
      split
      · exact ih h.2
      · rename_i v hv
        have : (us.filter (fun u => decide (u.did = did))).filterMap (fun u => elemByte u x k) = [] := by
          rw [List.filterMap_eq_nil_iff]
          intro w hw
          obtain ⟨h1, h2⟩ := List.mem_filter.mp hw
          cases hb : elemByte w x k with
          | none => rfl
          | some _ => exact (h.1 w h1 ((of_decide_eq_true hd).trans (of_decide_eq_true h2).symm) x (elemByte_mem hv) (elemByte_mem hb)).elim
        rw [this]
        simp
    · exact ih h.2

theorem lastElem_perm {us vs : List UW} {did : Nat} (hp : (us.filter (fun u => decide (u.did = did))).Perm
    (vs.filter (fun u => decide (u.did = did)))) (h : (us.filter (fun u => decide (u.did = did))).Pairwise Apart) (x : List Nat) (k : Nat) :
    lastElem us did x k = lastElem vs did x k := by
  unfold lastElem
  have h1 := apart_one h did x k
  rw [List.filter_filter, List.filter_congr (q := fun u => decide (u.did = did)) (by simp)] at h1
  have h2 := hp.filterMap (fun u => elemByte u x k)
  generalize (us.filter (fun u => decide (u.did = did))).filterMap (fun u => elemByte u x k) = l at h1 h2 ⊢
  generalize (vs.filter (fun u => decide (u.did = did))).filterMap (fun u => elemByte u x k) = l' at h2 ⊢
  match l, h1, h2 with
  | [], _, h2 => rw [List.nil_perm.mp h2]
  | [a], _, h2 => rw [List.singleton_perm.mp h2]

/-- The same writes to a dataset: in the same order, or in any order if no two of them have a cell in common. -/
def SameWrites (did : Nat) (us vs : List UW) : Prop :=
  us.filter (fun u => decide (u.did = did)) = vs.filter (fun u => decide (u.did = did)) ∨
  ((us.filter (fun u => decide (u.did = did))).Perm (vs.filter (fun u => decide (u.did = did))) ∧
    (us.filter (fun u => decide (u.did = did))).Pairwise Apart)

/-- **C69.** Two sequences of calls, with any numbers of processes and any configurations, have made the same writes to a dataset.
Then reads of the same cells of it by any process give the same elements. -/
theorem C69_same {srt srt' : List (List Nat) → List Nat} (hs : IsSort srt) (hs' : IsSort srt') {cfg cfg' : Cfg}
    {st st' : FState} {u u' : UFile} (h : Calls srt cfg st u) (h' : Calls srt' cfg' st' u')
    (hq : u.queue.length = 1 ∨ u.queue.flatten = []) (hq' : u'.queue.length = 1 ∨ u'.queue.flatten = []) (asked asked' : Bool)
    {doff mdoff doff' mdoff' : Nat} (hf : Fresh st doff) (hm : Fresh st mdoff) (hd : doff + u.size ≤ mdoff)
    (hf' : Fresh st' doff') (hm' : Fresh st' mdoff') (hd' : doff' + u'.size ≤ mdoff')
    (hb : st.mbuf = none ∨ u.all ≠ []) (hb' : st'.mbuf = none ∨ u'.all ≠ []) :
    ∃ st1 st1', st.dread asked doff mdoff = .ok st1 ∧ st'.dread asked' doff' mdoff' = .ok st1' ∧ (Small st1 → Small st1' →
      ∀ did d f m m' ubuf ubuf' xs as as', u.Indexed cfg st.compact did → u'.Indexed cfg' st'.compact did → SameWrites did u.all u'.all → u.dsets[did]? = some (some d) → u'.dsets[did]? = some (some d) →
        Xfer d f m ubuf xs as → Xfer d f m' ubuf' xs as' → ∀ r < u.queue.length, ∀ r' < u'.queue.length, ∀ xbuf xbuf',
        ∃ n, ∀ fuel ≥ n, ∀ fill mem mem' out out', (∀ fv, fill did = some fv → fv.length = d.esize) →
          st1.h5dread srt fuel r did f m ubuf xbuf fill mem out → st1'.h5dread srt' fuel r' did f m' ubuf' xbuf' fill mem' out' →
          ∃ mem1 mem1', out = .ok mem1 ∧ out' = .ok mem1' ∧ ∀ (i : Nat) (x : List Nat) (p p' j : Nat), xs[i]? = some x → as[i]? = some p → as'[i]? = some p' →
            j < d.esize → lastElem u.all did x j ≠ none ∨ fill did ≠ none → mem1 (p + j) = mem1' (p' + j)) := by
  obtain ⟨st1, e1, k1⟩ := C68_read hs h hq asked hf hm hd hb
  obtain ⟨st1', e1', k1'⟩ := C68_read hs' h' hq' asked' hf' hm' hd' hb'
  refine ⟨st1, st1', e1, e1', fun hsm hsm' did d f m m' ubuf ubuf' xs as as' hi hi' hw hds hds' hx hx' r hr r' hr' xbuf xbuf' => ?_⟩
  have hl : ∀ x k, lastElem u.all did x k = lastElem u'.all did x k := by
    intro x k
    rcases hw with hw | ⟨hw, ha⟩
    · unfold lastElem
      rw [hw]
    · exact lastElem_perm hw ha x k
  obtain ⟨n, g⟩ := (k1 hsm st1 (.refl _)).2 r hr did d f m ubuf xs as hds hi hx xbuf
  obtain ⟨n', g'⟩ := (k1' hsm' st1' (.refl _)).2 r' hr' did d f m' ubuf' xs as' hds' hi' hx' xbuf'
  refine ⟨max n n', fun fuel hfu fill mem mem' out out' hfv ho ho' => ?_⟩
  obtain ⟨mem1, rfl, v, _⟩ := (g fuel (by omega) fill mem).2 out ho
  obtain ⟨mem1', rfl, v', _⟩ := (g' fuel (by omega) fill mem').2 out' ho'
  refine ⟨mem1, mem1', rfl, rfl, fun i x p p' j hi hp hp' hj hdef => ?_⟩
  obtain ⟨v1, v2⟩ := v i x p j hi hp hj
  obtain ⟨v1', v2'⟩ := v' i x p' j hi hp' hj
  rw [← hl x j] at v1' v2'
  cases hle : lastElem u.all did x j with
  | some b => rw [v1 b hle, v1' b hle]
  | none =>
    cases hfi : fill did with
    | none =>
      rw [hle, hfi] at hdef
      simp at hdef
    | some fv =>
      have hlen := hfv fv hfi
      have hg : fv[j]? = some fv[j] := List.getElem?_eq_getElem (by omega)
      rw [v2 hle fv _ hfi hg, v2' hle fv _ hfi hg]

/-! ### A case that meets the hypotheses -/

theorem h5dwrite_same {srt : List (List Nat) → List Nat} {r did : Nat} {f : FArg} {m : MArg} {ubuf : Nat} {mem : Mem} {st st' : FState}
    (h : st.h5dwrite srt r did f m ubuf mem = .ok st') : st'.lds = st.lds ∧ st'.mds = st.mds := by
  unfold FState.h5dwrite at h
  split at h
  · obtain ⟨s, _, h⟩ := Res.bind_ok h
    split at h
    · obtain ⟨_, _, h⟩ := Res.bind_ok h
      cases h
      exact ⟨rfl, rfl⟩
    · obtain ⟨data, _, h⟩ := Res.bind_ok h
      obtain ⟨st1, h1, h⟩ := Res.bind_ok h
      obtain ⟨_, _, h⟩ := Res.bind_ok h
      cases h
      unfold FState.write at h1
      split at h1
      · obtain ⟨k, _, h1⟩ := Res.bind_ok h1
        cases h1
        exact ⟨rfl, rfl⟩
      · cases h1
  · cases h

def sfF : FArg := .space [4, 6] (.points [[0, 0], [3, 5]])

theorem sf_write : Xfer apD sfF .block 3000 [[0, 0], [3, 5]] [3000, 3002] where
  chosen := by refine ⟨?_, rfl⟩; simp [apD, DInfo.ndim]
  supp := by simp [sfF, Verif.Spec.fileSpace, Supported, RowLt]
  within := by simp [apD]
  dims := by simp [apD]
  es := by decide
  mem := rfl
  ok := trivial

def sfA (mem : Mem) : UW := ⟨0, apD, (Verif.Spec.fileSpace apD apF).2, apXs, bytesAt 2 mem apAs⟩

def sfB (mem : Mem) : UW := ⟨0, apD, (Verif.Spec.fileSpace apD sfF).2, [[0, 0], [3, 5]], bytesAt 2 mem [3000, 3002]⟩

theorem sf_allows (cfg : Cfg) {u : UFile} (hu : ∀ v ∈ u.all, ¬ v.InRecord) (data : List Byte) :
    u.Allows cfg ⟨0, apD, (Verif.Spec.fileSpace apD sfF).2, [[0, 0], [3, 5]], data⟩ := by
  refine ⟨fun _ => .inr ⟨show prod apD.dims < 2 ^ 63 by decide, .inl ?_⟩, fun _ _ v hv => .inr (.inr ?_)⟩
  · intro i hi h x hx
    simp only [apD, List.length_cons, List.length_nil] at h
    obtain rfl : i = 1 := by omega
    exact ⟨1, show 1 < 6 by decide, (show ∀ x ∈ [[0, 0], [3, 5]], x.set 1 1 ∉ [[0, 0], [3, 5]] by decide) x hx⟩
  · have h1 : ¬ (⟨0, apD, (Verif.Spec.fileSpace apD sfF).2, [[0, 0], [3, 5]], data⟩ : UW).InRecord := fun h => by
      simp [apD] at h
      exact absurd h.1 (by simp)
    exact iff_of_false h1 (hu v hv)

theorem sf_indexed (cfg : Cfg) (compact : Bool) (did : Nat) (mem : Mem) {u : UFile} (h : u.all = [sfA mem, sfB mem] ∨ u.all = [sfB mem, sfA mem]) :
    u.Indexed cfg compact did := by
  have r1 : ¬ (sfA mem).InRecord := fun h => by simp [sfA, apD] at h; exact absurd h.1 (by simp)
  have r2 : ¬ (sfB mem).InRecord := fun h => by simp [sfB, apD] at h; exact absurd h.1 (by simp)
  rcases h with h | h
  · exact ⟨fun _ => by rw [h]; simp [sfA, sfB], fun _ _ => by rw [h]; simp [sfA, sfB], fun _ _ => by rw [h]; simp [r1, r2]⟩
  · exact ⟨fun _ => by rw [h]; simp [sfA, sfB], fun _ _ => by rw [h]; simp [sfA, sfB], fun _ _ => by rw [h]; simp [r1, r2]⟩

/-- One process writes twice; two processes write once each, the other way round, and flush, possibly with another configuration.  The
hypotheses of `C69_same` on the writes and on what is queued are met, with the list of writes in different orders. -/
theorem sf_case {srt : List (List Nat) → List Nat} (hs : IsSort srt) (cfg cfg' : Cfg)
    (compact compact' : Bool) (mbuf : Option Nat) (mem : Mem) :
    ∃ st u st' u', Calls srt cfg st u ∧ Calls srt cfg' st' u' ∧ u.queue.length = 1 ∧ u'.queue.length = 2 ∧ u'.queue.flatten = [] ∧
      u.Indexed cfg st.compact 0 ∧ u'.Indexed cfg' st'.compact 0 ∧
      u.all = [sfA mem, sfB mem] ∧ u'.all = [sfB mem, sfA mem] ∧ SameWrites 0 u.all u'.all ∧ u.dsets = u'.dsets := by
  have r1 : ¬ (sfA mem).InRecord := fun h => by simp [sfA, apD] at h; exact absurd h.1 (by simp)
  have h0 := Calls.dset apD (Calls.create (srt := srt) (cfg := cfg) compact mbuf 1 (fun _ => 0) (by decide) (by decide))
  obtain ⟨_, _, h1⟩ := C68_write hs h0 mem (r := 0) (did := 0) (by decide) rfl ap_write (by decide)
    ⟨by decide, by decide, by decide, by decide⟩ (ap_allows cfg (by simp [UFile.all]) _)
  obtain ⟨st, _, h2⟩ := C68_write hs h1 mem (r := 0) (did := 0) (by simp [UFile.write]) rfl sf_write (by decide)
    ⟨by decide, by decide, by decide, by simp [UFile.all, UFile.write]⟩ (sf_allows cfg (by
      intro v hv
      simp [UFile.all, UFile.write] at hv
      rw [hv]
      exact r1) _)
  have h0' := Calls.dset apD (Calls.create (srt := srt) (cfg := cfg') compact' mbuf 2 (fun _ => 0) (by decide) (by decide))
  obtain ⟨_, e1, h1'⟩ := C68_write hs h0' mem (r := 1) (did := 0) (by decide) rfl ap_write (by decide)
    ⟨by decide, by decide, by decide, by decide⟩ (ap_allows cfg' (by simp [UFile.all]) _)
  obtain ⟨st', e2, h2'⟩ := C68_write hs h1' mem (r := 0) (did := 0) (by simp [UFile.write]) rfl sf_write (by decide)
    ⟨by decide, by decide, by decide, by simp [UFile.all, UFile.write]⟩ (sf_allows cfg' (by
      intro v hv
      simp [UFile.all, UFile.write] at hv
      rw [hv]
      exact r1) _)
  obtain ⟨a1, a2⟩ := h5dwrite_same e1
  obtain ⟨b1, b2⟩ := h5dwrite_same e2
  have hf : Fresh st' 0 := by
    intro e he
    rw [b1, b2, a1, a2] at he
    exact absurd he List.not_mem_nil
  obtain ⟨st'', _, h3⟩ := C68_flush hs h2' hf (by simp [UFile.size, UFile.write, bytesAt, apAs, apD, List.range_succ])
  refine ⟨st, _, st'', _, h2, h3, by simp [UFile.write], by simp [UFile.write, UFile.flush], by simp [UFile.write, UFile.flush],
    sf_indexed cfg _ _ mem (.inl rfl), sf_indexed cfg' _ _ mem (.inr rfl), rfl, rfl, .inr ⟨List.Perm.swap _ _ _, ?_⟩, rfl⟩
  simp [UFile.all, UFile.write, Apart, apXs]

end Verif.Props
