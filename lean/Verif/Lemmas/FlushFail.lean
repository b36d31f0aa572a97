import Verif.Lemmas.Crash
import Verif.Spec.FlushFail
import Verif.Lemmas.FileMeta
import Verif.Lemmas.FileTop

/-
Failed flushes: what is assigned before the failure is assigned again; a dataset without contents.
-/

namespace Verif

open Spec (AW AFile WriteOK MayWrite Fresh Small Layout Stored Known ReachF)

/-! ### Before the dataset exists -/

theorem localOffs_again (rs : List WReq) : ∀ acc acc', localOffs acc (localOffs acc' rs) = localOffs acc rs := by
  induction rs with
  | nil => intros; rfl
  | cons r rs ih => intro acc acc'; simp [localOffs, ih]

theorem localOffs_length (rs : List WReq) : ∀ acc, (localOffs acc rs).length = rs.length := by
  induction rs with
  | nil => intros; rfl
  | cons r rs ih => intro acc; simp [localOffs, ih]

theorem localOffs_data (rs : List WReq) : ∀ acc, (localOffs acc rs).map (fun r => r.data) = rs.map (fun r => r.data) := by
  induction rs with
  | nil => intros; rfl
  | cons r rs ih => intro acc; simp [localOffs, ih]

theorem setLocal_pending (k : Rank) : k.setLocal.pending = localOffs 0 k.pending := by
  unfold Rank.setLocal Rank.pending
  simp only
  rcases Nat.le_total k.nflushed k.wreqs.length with h | h
  · rw [List.drop_left' (by simp [h])]
  · rw [List.drop_eq_nil_of_le h]
    simp [localOffs, List.take_of_length_le h, List.drop_eq_nil_of_le h]

theorem setLocal_taken (k : Rank) : k.setLocal.wreqs.take k.setLocal.nflushed = k.wreqs.take k.nflushed := by
  unfold Rank.setLocal
  simp only
  rcases Nat.le_total k.nflushed k.wreqs.length with h | h
  · rw [List.take_left' (by simp [h])]
  · unfold Rank.pending
    rw [List.drop_eq_nil_of_le h]
    simp [localOffs, List.take_of_length_le h]

theorem setLocal_nflushed (k : Rank) : k.setLocal.nflushed = k.nflushed := rfl

theorem setLocal_length (k : Rank) : k.setLocal.wreqs.length = k.wreqs.length := by
  unfold Rank.setLocal Rank.pending
  simp only [List.length_append, localOffs_length, List.length_take, List.length_drop]
  omega

theorem setLocal_again (k : Rank) : k.setLocal.setLocal = k.setLocal := by
  have h1 := setLocal_taken k
  have h2 := setLocal_pending k
  generalize hk : k.setLocal = k' at *
  unfold Rank.setLocal
  rw [h1, h2, localOffs_again, ← hk]
  rfl

theorem setLocal_flushAt (k : Rank) (off : Nat) : k.setLocal.flushAt off = k.flushAt off := by
  have h1 := setLocal_taken k
  have h2 := setLocal_pending k
  have h3 := setLocal_length k
  unfold Rank.flushAt
  rw [h1, h2, h3, localOffs_again]
  rfl

theorem setLocal_localSize (k : Rank) : k.setLocal.localSize = k.localSize := by
  unfold Rank.localSize
  rw [setLocal_pending]
  have := congrArg (List.map List.length) (localOffs_data k.pending 0)
  rw [List.map_map, List.map_map] at this
  exact congrArg List.sum this

theorem setLocal_short (k : Rank) : k.setLocal.pending.all (fun r => decide (r.data.length < 2 ^ 31)) =
    k.pending.all (fun r => decide (r.data.length < 2 ^ 31)) := by
  rw [setLocal_pending]
  have e : ∀ l : List WReq, l.all (fun r => decide (r.data.length < 2 ^ 31)) =
      (l.map (fun r => r.data)).all (fun d => decide (d.length < 2 ^ 31)) := by
    intro l; rw [List.all_map]; rfl
  rw [e, e, localOffs_data]

theorem setLocal_out (k : Rank) : k.setLocal.pending.flatMap (fun r => r.data) = k.pending.flatMap (fun r => r.data) := by
  rw [setLocal_pending, List.flatMap_def, List.flatMap_def, localOffs_data]

theorem setLocal_none (k : Rank) : k.setLocal.pending = [] ↔ k.pending = [] := by
  rw [setLocal_pending, ← List.length_eq_zero_iff, localOffs_length, List.length_eq_zero_iff]

theorem setLocal_metaSizes (k : Rank) : k.setLocal.wreqs.map WReq.metaSize = k.wreqs.map WReq.metaSize := by
  have e : ∀ (rs : List WReq) acc, (localOffs acc rs).map WReq.metaSize = rs.map WReq.metaSize := by
    intro rs
    induction rs with
    | nil => intros; rfl
    | cons r rs ih =>
      intro acc
      simp only [localOffs, List.map_cons, ih, List.cons.injEq, and_true]
      rfl
  unfold Rank.setLocal Rank.pending
  simp only [List.map_append, e]
  rw [← List.map_append, List.take_append_drop]

/-- The requests that wait have got offsets: flushing them gives the same as before. -/
theorem aim_flush (st : FState) (doff : Nat) : st.aim.flush doff = st.flush doff := by
  unfold FState.flush FState.aim
  simp only [List.all_map, List.map_map]
  have e1 : ((fun k : Rank => k.pending.all (fun r => decide (r.data.length < 2 ^ 31))) ∘ Rank.setLocal) =
      fun k : Rank => k.pending.all (fun r => decide (r.data.length < 2 ^ 31)) := funext setLocal_short
  have e2 : (Rank.localSize ∘ Rank.setLocal) = Rank.localSize := funext setLocal_localSize
  have e3 : (Rank.setLocal ∘ Rank.setLocal) = Rank.setLocal := funext setLocal_again
  rw [e1, e2, e3]
  split
  · split
    · rfl
    · congr 2
      · rw [List.zipWith_map_left]
        simp only [setLocal_flushAt]
      · rw [zip_map_left', List.foldl_map]
        simp only [setLocal_out]
  · rfl

theorem aim_aim (st : FState) : st.aim.aim = st.aim := by
  unfold FState.aim
  simp only [List.map_map]
  rw [show (Rank.setLocal ∘ Rank.setLocal) = Rank.setLocal from funext setLocal_again]

theorem aim_pending (st : FState) : st.aim.anyPending = st.anyPending := by
  unfold FState.anyPending FState.aim
  rw [List.any_map]
  congr 1
  funext k
  simp only [Function.comp, ne_eq, setLocal_none]

theorem aim_sizes (st : FState) : st.aim.ranks.map Rank.localSize = st.ranks.map Rank.localSize := by
  unfold FState.aim
  rw [List.map_map, show (Rank.localSize ∘ Rank.setLocal) = Rank.localSize from funext setLocal_localSize]

theorem aim_mdSizes (st : FState) : mdSizes st.aim.ranks = mdSizes st.ranks := by
  unfold mdSizes FState.aim
  simp only [List.length_map]
  apply List.ext_getElem
  · simp
  · intro i h1 h2
    simp [setLocal_metaSizes]

/-- What the processes have queued, with offsets. -/
def aimRS (x : RS) : RS := { k := x.k.setLocal, fl := x.fl, qu := relocate 0 x.qu }

theorem RSOK.setLocal {cfg : Cfg} {x : RS} (h : RSOK cfg x) : RSOK cfg (aimRS x) := by
  have hs : List.Forall₂ SameReq (x.fl ++ x.qu) (x.fl ++ relocate 0 x.qu) := by
    refine List.rel_append ?_ (relocate_same 0 x.qu)
    exact List.forall₂_same.mpr (fun y _ => ⟨rfl, rfl⟩)
  have hl : (x.fl ++ relocate 0 x.qu).length = (x.fl ++ x.qu).length := hs.length_eq.symm
  refine ⟨?_, h.nfl, ?_⟩
  · have := rankInv_same (n := x.k.nflushed) h.inv hs
    have e : x.k.setLocal = Rank.mk ((x.fl ++ relocate 0 x.qu).map (·.2)) x.k.nflushed x.k.mdsize x.k.hash := by
      have e0 := localOffs_relocate (xs := x.qu) (fun y hy => h.data y (by simp [hy])) 0 0
      simp only [Nat.add_zero] at e0
      unfold Rank.setLocal
      rw [h.taken, h.pending, List.map_append, ← e0]
      simp
    simp only [aimRS]
    rw [e]; exact this
  · simp only [aimRS]; rw [hl]; exact h.len

theorem inv_aim {cfg : Cfg} {g : Ghost} {st : FState} {a : AFile} (h : Inv cfg g st a) :
    ∃ g', Inv cfg g' st.aim a ∧ g'.rs = g.rs.map aimRS := by
  refine ⟨{ g with rs := g.rs.map aimRS }, ?_, rfl⟩
  constructor
  case cfgEq => exact h.cfgEq
  case dsets => exact h.dsets
  case ranks =>
    simp only [FState.aim]
    rw [h.ranks, List.map_map, List.map_map]; rfl
  case queue =>
    rw [h.queue, List.map_map]
    apply List.map_congr_left
    intro x _
    simp only [Function.comp, aimRS, relocate_fst]
  case epoch =>
    rw [h.epoch, List.map_map]; rfl
  case idxl => simpa [FState.aim] using h.idxl
  case np0 => simpa using h.np0
  case np1 => simpa using h.np1
  case rok =>
    intro y hy
    obtain ⟨x, hx, rfl⟩ := List.mem_map.mp hy
    exact (h.rok x hx).setLocal
  case wokm => exact h.wokm
  case wokr =>
    intro y hy z hz
    obtain ⟨x, hx, rfl⟩ := List.mem_map.mp hy
    have : z.1 ∈ (x.fl ++ x.qu).map (·.1) := by
      rw [List.map_append, ← relocate_fst 0 x.qu, ← List.map_append]
      exact List.mem_map_of_mem hz
    obtain ⟨u, hu, he⟩ := List.mem_map.mp this
    rw [← he]
    exact h.wokr x hx u hu
  case lay => exact h.lay
  case sto => exact h.sto
  case done => exact h.done
  case perm =>
    have e : (g.rs.map aimRS).flatMap RS.fl = g.rs.flatMap RS.fl := by rw [List.flatMap_map]; rfl
    simp only [e]
    exact h.perm
  case inl => exact h.inl
  case small => exact h.small
  case md => exact h.md
  case sec => exact h.sec
  case ord => exact h.ord
  case cache => exact h.cache
  case dirty => exact h.dirty

/-- A flush that succeeds is one without failures. -/
theorem gflush_ok {g g' : GState} {doff : Nat} (h : g.flush none doff = .ok g') :
    g.st.flush doff = .ok g'.st ∧ g'.stray = g.stray := by
  unfold GState.flush at h
  split at h
  · rename_i st' e
    simp only at h
    split at h
    · injection h with h; subst h; exact ⟨e, rfl⟩
    · split at h
      · simp at h
      · injection h with h; subst h; exact ⟨e, rfl⟩
  · simp at h

theorem gflush_early {g g' : GState} {doff : Nat} (h : g.flush (some .early) doff = .failed g') :
    g' = { g with st := g.st.aim } := by
  unfold GState.flush at h
  split at h
  · simp only [FOut.failed.injEq] at h
    exact h.symm
  · simp at h

theorem gflush_none {g : GState} (hs : g.stray = false) {doff : Nat} {st' : FState} (h : g.st.flush doff = .ok st') :
    g.flush none doff = .ok { g with st := st' } := by
  unfold GState.flush
  rw [h]
  simp [hs]

theorem gflush_none_fails {g g' : GState} (hs : g.stray = false) {doff : Nat} (h : g.flush none doff = .failed g') : False := by
  unfold GState.flush at h
  split at h
  · simp [hs] at h
  · simp at h

theorem gclose_none {g : GState} (hs : g.stray = false) (doff mdoff : Nat) {st' : FState} (h : g.st.close doff mdoff = .ok st') :
    g.close none none doff mdoff = .ok { g with st := st' } := by
  unfold FState.close at h
  obtain ⟨st1, h1, h2⟩ := Res.bind_ok h
  simp only [Res.pure_eq, Res.ok.injEq] at h2
  unfold GState.close
  rw [gflush_none hs h1]
  simp only [FOut.bind, GState.metaflush]
  rw [← h2]

theorem gclose_ok {g g' : GState} {doff mdoff : Nat} (h : g.close none none doff mdoff = .ok g') :
    g.st.close doff mdoff = .ok g'.st ∧ g'.stray = g.stray := by
  unfold GState.close at h
  cases hf : g.flush none doff with
  | ok g1 =>
    rw [hf] at h
    simp only [FOut.bind, GState.metaflush, FOut.ok.injEq] at h
    obtain ⟨h1, h2⟩ := gflush_ok hf
    subst h
    exact ⟨by simp [FState.close, h1], h2⟩
  | failed g1 => rw [hf] at h; simp [FOut.bind] at h
  | ub => rw [hf] at h; simp [FOut.bind] at h

theorem gprepare_none {g : GState} (hs : g.stray = false) {coll : Bool} {doff mdoff : Nat} {st' : FState}
    (h : g.st.prepare coll doff mdoff = .ok st') : g.prepare none none coll doff mdoff = .ok { g with st := st' } := by
  unfold FState.prepare at h
  obtain ⟨st1, h1, h2⟩ := Res.bind_ok h
  simp only [Res.pure_eq, Res.ok.injEq] at h2
  unfold GState.prepare
  have e : (if (coll || decide (g.st.ranks.length = 1)) && g.st.anyPending then g.flush none doff else .ok g) =
      .ok { g with st := st1 } := by
    split at h1
    · rename_i hc
      rw [if_pos hc]
      exact gflush_none hs h1
    · rename_i hc
      rw [if_neg hc]
      simp only [Res.ok.injEq] at h1
      rw [← h1]
  rw [e]
  simp only [FOut.bind, GState.metaflush]
  rw [← h2]
  split <;> rfl

theorem gprepare_ok {g g' : GState} {coll : Bool} {doff mdoff : Nat} (h : g.prepare none none coll doff mdoff = .ok g') :
    g.st.prepare coll doff mdoff = .ok g'.st ∧ g'.stray = g.stray := by
  unfold GState.prepare at h
  cases hf : (if (coll || decide (g.st.ranks.length = 1)) && g.st.anyPending then g.flush none doff else .ok g) with
  | ok g1 =>
    rw [hf] at h
    have e : (if (coll || decide (g.st.ranks.length = 1)) && g.st.anyPending then g.st.flush doff else .ok g.st) = .ok g1.st ∧
        g1.stray = g.stray := by
      split at hf
      · rename_i hc
        rw [if_pos hc]
        exact gflush_ok hf
      · rename_i hc
        rw [if_neg hc]
        simp only [FOut.ok.injEq] at hf
        rw [hf]; exact ⟨rfl, rfl⟩
    simp only [FOut.bind, GState.metaflush] at h
    unfold FState.prepare
    rw [e.1]
    simp only [Res.ok_bind, Res.pure_eq, Res.ok.injEq]
    split at h
    · rename_i hd
      simp only [FOut.ok.injEq] at h
      subst h
      exact ⟨by simp [hd], e.2⟩
    · rename_i hd
      simp only [FOut.ok.injEq] at h
      subst h
      exact ⟨by simp [hd], e.2⟩
  | failed g1 => rw [hf] at h; simp [FOut.bind] at h
  | ub => rw [hf] at h; simp [FOut.bind] at h

/-- Histories with failures. -/
theorem reachF_inv {cfg : Cfg} {g : GState} {a : AFile} (h : ReachF cfg g a) :
    g.stray = false ∧ ∃ gh, Inv cfg gh g.st a := by
  induction h with
  | create compact mbuf np disk h h2 => exact ⟨rfl, _, inv_create h h2⟩
  | addDset d _ ih =>
    obtain ⟨hs, gh, i⟩ := ih
    refine ⟨hs, gh, ?_⟩
    have := inv_dsets i (dsExt_append _ d)
    unfold FState.addDset AFile.addDset
    rw [← i.dsets]; exact this
  | setDims did dims d _ h1 h2 ih =>
    obtain ⟨hs, gh, i⟩ := ih
    refine ⟨hs, gh, ?_⟩
    have := inv_dsets i (dsExt_setDims (dims := dims) (by rw [i.dsets]; exact h1) h2)
    unfold FState.setDims AFile.setDims
    rw [← i.dsets]; exact this
  | @write g a st' r w _ h1 h2 ih =>
    obtain ⟨hs, gh, i⟩ := ih
    have hr : r < a.queue.length := by
      rw [← i.np]
      by_contra hc
      unfold FState.write at h2
      rw [List.getElem?_eq_none (by omega)] at h2
      simp at h2
    obtain ⟨st1, g1, e, i1⟩ := inv_write i h1 hr
    rw [h2] at e
    simp only [Res.ok.injEq] at e
    subst e
    exact ⟨hs, g1, i1⟩
  | @flush g a g' doff _ h1 h2 h3 ih =>
    obtain ⟨hs, gh, i⟩ := ih
    obtain ⟨st1, e, _, _, _, _, _, _, h4⟩ := inv_fileFlush i h1
    have e' : g.st.fileFlush doff = .ok g'.st ∧ g'.stray = g.stray := by
      unfold GState.fileFlush at h2
      unfold FState.fileFlush
      split at h2
      · rename_i hp
        rw [if_pos hp]
        exact gflush_ok h2
      · rename_i hp
        rw [if_neg hp]
        simp only [FOut.ok.injEq] at h2
        rw [h2]; exact ⟨rfl, rfl⟩
    rw [e'.1] at e
    simp only [Res.ok.injEq] at e
    subst e
    obtain ⟨g1, i1, _⟩ := h4 h3
    exact ⟨by rw [e'.2, hs], g1, i1⟩
  | @flushFails g a g' doff _ h1 h2 ih =>
    obtain ⟨hs, gh, i⟩ := ih
    unfold GState.fileFlush at h2
    split at h2
    · rw [gflush_early h2]
      obtain ⟨gh', i', _⟩ := inv_aim i
      exact ⟨hs, gh', i'⟩
    · simp at h2
  | @prepare g a g' coll doff mdoff _ h1 h2 h3 h4 h5 h6 ih =>
    obtain ⟨hs, gh, i⟩ := ih
    obtain ⟨st1, e, h7⟩ := inv_prepare i h1 h2 h3 h4
    obtain ⟨e1, e2⟩ := gprepare_ok h5
    rw [e1] at e
    simp only [Res.ok.injEq] at e
    subst e
    exact ⟨by rw [e2, hs], h7 h6⟩
  | @prepareFails g a g' f f' coll doff mdoff _ h1 hf1 hf2 h3 h4 ih =>
    obtain ⟨hs, gh, i⟩ := ih
    unfold GState.prepare at h3
    -- the flush of the metadata leaves the file as it is
    have hmd : ∀ g1 : GState, (if g1.st.metadirty then g1.metaflush f' mdoff else .ok g1) = .failed g' → g' = g1 := by
      intro g1 h
      split at h
      · unfold GState.metaflush at h
        rcases hf2 with rfl | rfl
        · simp at h
        · simp only [FOut.failed.injEq] at h
          exact h.symm
      · simp at h
    split at h3
    · rename_i hc
      cases hf : g.flush f doff with
      | ok g1 =>
        rw [hf] at h3
        have e := hmd g1 h3
        subst e
        rcases hf1 with rfl | rfl
        · obtain ⟨e1, e2⟩ := gflush_ok hf
          obtain ⟨st1, e, _, _, _, _, _, _, h5⟩ := inv_flush i h1
          rw [e1] at e
          simp only [Res.ok.injEq] at e
          subst e
          obtain ⟨gh', i', _⟩ := h5 h4
          simp only [Bool.and_eq_true, Bool.or_eq_true, decide_eq_true_eq, i.np] at hc
          rw [if_pos ⟨rfl, hc.1⟩]
          exact ⟨by rw [e2, hs], gh', i'⟩
        · unfold GState.flush at hf
          split at hf <;> simp at hf
      | failed g1 =>
        rw [hf] at h3
        simp only [FOut.bind, FOut.failed.injEq] at h3
        subst h3
        rcases hf1 with rfl | rfl
        · exact (gflush_none_fails hs hf).elim
        · rw [if_neg (by simp), gflush_early hf]
          obtain ⟨gh', i', _⟩ := inv_aim i
          exact ⟨hs, gh', i'⟩
      | ub => rw [hf] at h3; simp [FOut.bind] at h3
    · rename_i hc
      have e := hmd g h3
      subst e
      refine ⟨hs, gh, ?_⟩
      split
      · rename_i hd
        have hq : a.queue.flatten = [] := by
          by_contra hq
          apply hc
          rw [(i.anyPending).2 hq, i.np, Bool.and_true]
          simpa using hd.2
        rw [aflush_eq hq i.epoch_len]
        exact i
      · exact i
  | @search g a st' raw fuel r qs _ _ h1 ih =>
    obtain ⟨hs, gh, i⟩ := ih
    exact ⟨hs, gh, inv_search i h1⟩
  | @reopen g a g' doff mdoff np compact mbuf gone _ h1 h2 h3 h4 h5 h6 h7 ih =>
    obtain ⟨hs, gh, i⟩ := ih
    obtain ⟨st2, e, h8⟩ := inv_close i h1 h2 h3
    obtain ⟨e1, e2⟩ := gclose_ok h6
    rw [e1] at e
    simp only [Res.ok.injEq] at e
    rw [e] at h7 ⊢
    obtain ⟨g2, i2⟩ := h8 h7
    refine ⟨by rw [e2, hs], _, inv_reopen i2 ?_ h4 h5 compact mbuf gone⟩
    simp [AFile.metaflush]

/-! ### A metadata dataset without contents -/

/-- A metadata dataset that was never written. -/
def Blank (st : FState) : Prop :=
  (∃ (i : Nat) (e : Ext), st.mds[i]? = some e ∧ 8 < e.size ∧ ∀ x, e.addr ≤ x → x < e.addr + e.size → st.disk x = 0) ∧
  (st.metadirty = true ∨ ∀ o ∈ st.idx, o = none)

theorem fileBytes_zero {disk : Mem} {a n : Nat} (h : ∀ x, a ≤ x → x < a + n → disk x = 0) :
    fileBytes disk a n = List.replicate n 0 := by
  unfold fileBytes
  apply List.ext_getElem
  · simp
  · intro i h1 h2
    simp only [List.length_map, List.length_range] at h1
    simp only [List.getElem_map, List.getElem_range, List.getElem_replicate]
    exact h _ (by omega) (by omega)

theorem unle_zero (n : Nat) : unle (List.replicate n 0) = 0 := by
  induction n with
  | zero => rfl
  | succ n ih => simp [List.replicate_succ, unle, ih]

theorem blank_read {disk : Mem} {e : Ext} (h : ∀ x, e.addr ≤ x → x < e.addr + e.size → disk x = 0) {off n : Nat}
    {b : List Byte} (hb : e.read disk off n = .ok b) : b = List.replicate n 0 := by
  unfold Ext.read at hb
  split at hb
  · simp only [Res.ok.injEq] at hb
    rw [← hb]
    exact fileBytes_zero (fun x h1 h2 => h x (by omega) (by omega))
  · simp at hb

theorem rdHdr_zero {n off : Nat} {h : Hdr} (hh : rdHdr (List.replicate n 0) off = .ok h) : h.metaSize = 0 := by
  unfold rdHdr at hh
  obtain ⟨b, h1, h2⟩ := Res.bind_ok hh
  unfold rd at h1
  split at h1
  · simp only [Res.ok.injEq] at h1
    simp only [Res.pure_eq, Res.ok.injEq] at h2
    rw [← h2]
    simp only
    rw [← h1, List.drop_replicate, List.take_replicate, List.take_replicate]
    unfold unsle signed
    rw [unle_zero]
    simp
  · simp at h1

/-- The loop does not get past an entry of size 0. -/
theorem parse_zero {ε κ : Type} (step : Nat → Hdr → List (Int × κ) → Res (List ε × List (Int × κ))) {n : Nat} (hn : 0 < n)
    (fuel : Nat) (cache : List (Int × κ)) {es : List ε} :
    parseLoop step (List.replicate n 0) fuel 0 cache ≠ .ok es := by
  intro h
  cases fuel with
  | zero => simp [parseLoop, hn] at h
  | succ fuel =>
    unfold parseLoop at h
    rw [if_pos (by simpa using hn)] at h
    obtain ⟨hd, h1, h⟩ := Res.bind_ok h
    obtain ⟨x, _, h⟩ := Res.bind_ok h
    obtain ⟨off', h3, _⟩ := Res.bind_ok h
    unfold advance at h3
    rw [rdHdr_zero h1] at h3
    simp at h3

theorem idx_parse_zero {dsets : DSets} {share : Bool} {n : Nat} (hn : 0 < n) {ix ix' : Idx} :
    ix.parse dsets share (List.replicate n 0) ≠ .ok ix' := by
  intro h
  cases ix with
  | list es =>
    unfold Idx.parse at h
    obtain ⟨x, h1, _⟩ := Res.bind_ok h
    exact parse_zero _ hn _ _ h1
  | comp es =>
    unfold Idx.parse at h
    obtain ⟨x, h1, _⟩ := Res.bind_ok h
    exact parse_zero _ hn _ _ h1

theorem body_zero {disk : Mem} {e : Ext} (h : ∀ x, e.addr ≤ x → x < e.addr + e.size → disk x = 0) (hs : 8 < e.size)
    {b : List Byte} (hb : e.body disk = .ok b) : b = List.replicate (e.size - 8) 0 := by
  unfold Ext.body at hb
  obtain ⟨hd, h1, hb⟩ := Res.bind_ok hb
  rw [blank_read h h1, unle_zero] at hb
  simp only [Nat.zero_add, Nat.mul_one] at hb
  rw [if_neg (by omega)] at hb
  exact blank_read h hb

theorem loadAll_blank {dsets : DSets} {share : Bool} {disk : Mem} {mds : List Ext} {i : Nat} {e : Ext} (hi : mds[i]? = some e)
    (hs : 8 < e.size) (h : ∀ x, e.addr ≤ x → x < e.addr + e.size → disk x = 0) :
    ∀ (ix : Idx) {ix' : Idx}, loadAll dsets share disk mds ix ≠ .ok ix' := by
  induction mds generalizing i with
  | nil => simp at hi
  | cons m ms ih =>
    intro ix ix' hl
    unfold loadAll at hl
    obtain ⟨b, h1, hl⟩ := Res.bind_ok hl
    obtain ⟨ix1, h2, hl⟩ := Res.bind_ok hl
    cases i with
    | zero =>
      simp only [List.getElem?_cons_zero, Option.some.injEq] at hi
      subst hi
      rw [body_zero h hs h1] at h2
      exact idx_parse_zero (by omega) h2
    | succ i => exact ih (by simpa using hi) ix1 hl

theorem loadLoop_blank {st : FState} {lim : Nat} {qs : List RReq} {i : Nat} {e : Ext} (hi : st.mds[i]? = some e)
    (h : ∀ x, e.addr ≤ x → x < e.addr + e.size → st.disk x = 0) :
    ∀ (fuel md sec : Nat), md ≤ i → ∀ {hs : List Hit}, loadLoop st lim qs fuel (md, sec) ≠ .ok hs := by
  intro fuel
  induction fuel with
  | zero => intro md sec _ hs hl; simp [loadLoop] at hl
  | succ fuel ih =>
    intro md sec hmd hs hl
    unfold loadLoop at hl
    obtain ⟨p, h1, hl⟩ := Res.bind_ok hl
    obtain ⟨ix, _, hl⟩ := Res.bind_ok hl
    obtain ⟨hs1, _, hl⟩ := Res.bind_ok hl
    have hlen : i < st.mds.length := (List.getElem?_eq_some_iff.mp hi).1
    unfold loadPart at h1
    split at h1
    · simp at h1
    · rename_i m hm
      obtain ⟨hb, e1, h1⟩ := Res.bind_ok h1
      obtain ⟨ob, e2, h1⟩ := Res.bind_ok h1
      split at h1
      · simp at h1
      · rename_i hsec
        by_cases he : md = i
        · simp only at hm
          rw [he, hi] at hm
          simp only [Option.some.injEq] at hm
          subst hm
          rw [blank_read h e1, unle_zero] at hsec
          omega
        · dsimp only at h1
          generalize (if sec = 0 then 8 * (unle hb + 1) else (words (unle hb) ob).getD (sec - 1) 0) = start at h1
          split at h1
          · simp at h1
          · obtain ⟨b, _, h1⟩ := Res.bind_ok h1
            simp only [Res.pure_eq, Res.ok.injEq] at h1
            generalize partEnd start lim (sec + 1) (List.drop (sec + 1) (words (unle hb) ob)) = j at h1
            have hp : ∃ m' s' : Nat, m' ≤ i ∧ p.2 = some (m', s') := by
              rw [← h1]
              by_cases hj : unle hb ≤ j
              · refine ⟨md + 1, 0, by omega, ?_⟩
                simp only [if_pos hj]
                rw [if_neg (by omega)]
              · refine ⟨md, j, hmd, ?_⟩
                simp only [if_neg hj]
                rw [if_neg (by omega)]
            obtain ⟨m', s', hm', hp⟩ := hp
            rw [hp] at hl
            dsimp only at hl
            obtain ⟨hs2, h5, _⟩ := Res.bind_ok hl
            exact ih m' s' hm' h5

/-- Nothing can be read from a file with such a dataset. -/
theorem blank_search {st : FState} (h : Blank st) (hd : st.metadirty = false) (fuel r : Nat) (qs : List RReq)
    {x : List Hit × FState} : st.search fuel r qs ≠ .ok x := by
  obtain ⟨⟨i, e, hi, hs, hz⟩, hc⟩ := h
  have hc := hc.resolve_left (by simp [hd])
  intro hx
  unfold FState.search at hx
  split at hx
  · obtain ⟨hs1, h1, _⟩ := Res.bind_ok hx
    exact loadLoop_blank hi hz fuel 0 0 (by omega) h1
  · split at hx
    · simp at hx
    · rename_i o ho
      have := hc o (List.mem_of_getElem? ho)
      subst this
      obtain ⟨ix, h1, _⟩ := Res.bind_ok hx
      exact loadAll_blank hi hs hz _ h1

theorem metaflush_below {st : FState} {mdoff x : Nat} (hx : x < mdoff) : (st.metaflush mdoff).disk x = st.disk x := by
  unfold FState.metaflush
  simp only
  split
  · exact foldl_writeAt_out _ _ x _ _ (fun p _ => by omega)
  · rfl

theorem metaflush_prefix (st : FState) (mdoff : Nat) : st.mds <+: (st.metaflush mdoff).mds := by
  unfold FState.metaflush
  simp only
  split
  · exact List.prefix_append _ _
  · exact List.prefix_refl _

theorem flush_below {st st' : FState} {doff x : Nat} (h : st.flush doff = .ok st') (hx : x < doff) : st'.disk x = st.disk x := by
  unfold FState.flush at h
  split at h
  · simp only at h
    split at h
    · simp only [Res.ok.injEq] at h
      subst h; rfl
    · simp only [Res.ok.injEq] at h
      subst h
      exact foldl_writeAt_out _ _ x _ _ (fun p _ => by omega)
  · simp at h

theorem flush_keeps {st st' : FState} {doff : Nat} (h : st.flush doff = .ok st') :
    st'.mds = st.mds ∧ st'.idx = st.idx ∧ (st.metadirty = true → st'.metadirty = true) ∧
    (st'.metadirty = true ∨ st'.metadirty = st.metadirty) := by
  unfold FState.flush at h
  split at h
  · simp only at h
    split at h
    · simp only [Res.ok.injEq] at h
      subst h
      exact ⟨rfl, rfl, fun h => h, Or.inr rfl⟩
    · simp only [Res.ok.injEq] at h
      subst h
      exact ⟨rfl, rfl, fun _ => rfl, Or.inl rfl⟩
  · simp at h

theorem patch_below {disk d : Mem} {a n x : Nat} (hx : x < a) : patch disk d a n x = disk x := by
  unfold patch
  rw [if_neg (by omega)]

theorem Blank.keep {st st' : FState} (h : Blank st) {lo : Nat} (hf : Spec.Fresh st lo) (hp : st.mds <+: st'.mds)
    (hd : ∀ x < lo, st'.disk x = st.disk x) (hc : st'.metadirty = true ∨ ∀ o ∈ st'.idx, o = none) : Blank st' := by
  obtain ⟨⟨i, e, hi, hs, hz⟩, _⟩ := h
  refine ⟨⟨i, e, ?_, hs, fun x h1 h2 => ?_⟩, hc⟩
  · obtain ⟨t, ht⟩ := hp
    rw [← ht, List.getElem?_append_left (List.getElem?_eq_some_iff.mp hi).1]
    exact hi
  · rw [hd x, hz x h1 h2]
    have := hf e (List.mem_append_right _ (List.mem_of_getElem? hi))
    omega

theorem Blank.flush {g g' : GState} (h : Blank g.st) {f : Option Stop} {doff : Nat} (hf : Spec.Fresh g.st doff)
    (hg : g.flush f doff = .ok g' ∨ g.flush f doff = .failed g') : Blank g'.st := by
  unfold GState.flush at hg
  cases hfl : g.st.flush doff with
  | ok st' =>
    rw [hfl] at hg
    have b1 : Blank st' := by
      obtain ⟨k1, k2, k3, k4⟩ := flush_keeps hfl
      refine h.keep hf (by rw [k1]; exact List.prefix_refl _) (fun x hx => flush_below hfl hx) ?_
      rcases h.2 with hm | hm
      · exact Or.inl (k3 hm)
      · rw [k2]; exact Or.inr hm
    have b2 : Blank g.st.aim := h
    have b3 : ∀ d n, Blank { g.st.aim with disk := patch g.st.disk d doff n } :=
      fun d n => h.keep hf (List.prefix_refl _) (fun x hx => patch_below hx) h.2
    simp only at hg
    split at hg
    · rcases hg with hg | hg
      · simp at hg
      · simp only [FOut.failed.injEq] at hg
        subst hg; exact b2
    · split at hg
      · rcases hg with hg | hg
        · simp only [FOut.ok.injEq] at hg
          subst hg; exact b1
        · simp at hg
      · split at hg
        · rcases hg with hg | hg
          · simp at hg
          · simp only [FOut.failed.injEq] at hg
            subst hg; exact b2
        · rcases hg with hg | hg
          · simp at hg
          · simp only [FOut.failed.injEq] at hg
            subst hg; exact b3 _ _
    · split at hg
      · rcases hg with hg | hg
        · simp only [FOut.ok.injEq] at hg
          subst hg; exact b1
        · simp at hg
      · split at hg
        · rcases hg with hg | hg
          · simp at hg
          · simp only [FOut.failed.injEq] at hg
            subst hg; exact b2
        · rcases hg with hg | hg
          · simp only [FOut.ok.injEq] at hg
            subst hg; exact b1
          · simp at hg
  | err => rw [hfl] at hg; simp at hg
  | ub => rw [hfl] at hg; simp at hg

theorem Blank.metaflush {g g' : GState} (h : Blank g.st) {f : Option Stop} {mdoff : Nat} (hf : Spec.Fresh g.st mdoff)
    (hg : g.metaflush f mdoff = .ok g' ∨ g.metaflush f mdoff = .failed g') : Blank g'.st := by
  have b1 : Blank (g.st.metaflush mdoff) := by
    refine h.keep hf (metaflush_prefix _ _) (fun x hx => metaflush_below hx) (Or.inr ?_)
    intro o ho
    simp only [FState.metaflush, List.mem_map] at ho
    obtain ⟨_, _, rfl⟩ := ho
    rfl
  unfold GState.metaflush at hg
  simp only at hg
  split at hg
  · rcases hg with hg | hg
    · simp at hg
    · simp only [FOut.failed.injEq] at hg
      subst hg; exact h
  · split at hg
    · rcases hg with hg | hg
      · simp at hg
      · simp only [FOut.failed.injEq] at hg
        subst hg
        exact h.keep hf (List.prefix_append _ _) (fun x hx => patch_below hx) h.2
    · rcases hg with hg | hg
      · simp only [FOut.ok.injEq] at hg
        subst hg; exact b1
      · simp at hg
  · rcases hg with hg | hg
    · simp only [FOut.ok.injEq] at hg
      subst hg; exact b1
    · simp at hg

theorem blank_goesOn {g g' : GState} (h : Spec.GoesOn g g') (hb : Blank g.st) : Blank g'.st := by
  induction h with
  | refl => exact hb
  | addDset d _ ih => exact ih
  | setDims did dims _ ih => exact ih
  | @write _ st' r did bs data _ h ih =>
    unfold FState.write at h
    split at h
    · obtain ⟨k, _, h⟩ := Res.bind_ok h
      simp only [Res.pure_eq, Res.ok.injEq] at h
      subst h
      exact ih
    · simp at h
  | flush f doff _ hf h ih => exact ih.flush hf h
  | metaflush f mdoff _ hf h ih => exact ih.metaflush hf h
  | search fuel r qs _ hd h ih => exact (blank_search ih hd _ _ _ h).elim
  | @reopen g1 g2 doff mdoff np compact mbuf gone _ hf hf' h ih =>
    unfold GState.close at h
    cases hfl : g1.flush none doff with
    | ok g3 =>
      rw [hfl] at h
      simp only [FOut.bind, GState.metaflush, FOut.ok.injEq] at h
      subst h
      obtain ⟨e1, _⟩ := gflush_ok hfl
      obtain ⟨k1, _, _, _⟩ := flush_keeps e1
      obtain ⟨⟨i, e, hi, hs, hz⟩, _⟩ := ih
      have hle := fun lo (hf : Spec.Fresh g1.st lo) => hf e (List.mem_append_right _ (List.mem_of_getElem? hi))
      refine ⟨⟨i, e, ?_, hs, fun x h1 h2 => ?_⟩, Or.inr ?_⟩
      · simp only [FState.reopen]
        rw [List.take_length]
        obtain ⟨t, ht⟩ := metaflush_prefix g3.st mdoff
        rw [← ht, k1, List.getElem?_append_left (List.getElem?_eq_some_iff.mp hi).1]
        exact hi
      · have a1 := hle doff hf
        have a2 := hle mdoff hf'
        simp only [FState.reopen]
        rw [metaflush_below (by omega), flush_below e1 (by omega), hz x h1 h2]
      · intro o ho
        simp only [FState.reopen] at ho
        exact List.eq_of_mem_replicate ho
    | failed g3 => rw [hfl] at h; simp [FOut.bind] at h
    | ub => rw [hfl] at h; simp [FOut.bind] at h

/-! ### A data dataset in the way -/

/-- Data is queued. -/
theorem stray_flush {g g' : GState} (hs : g.stray = true) {f : Option Stop} {doff : Nat}
    (h : g.flush f doff = .ok g' ∨ g.flush f doff = .failed g') :
    g'.stray = true ∧ g'.st.lds = g.st.lds ∧ (g.flush f doff = .ok g' → (g.st.ranks.map Rank.localSize).sum = 0) := by
  unfold GState.flush at h ⊢
  cases hfl : g.st.flush doff with
  | ok st' =>
    rw [hfl] at h
    have e0 : (g.st.ranks.map Rank.localSize).sum = 0 → st'.lds = g.st.lds := by
      intro h0
      unfold FState.flush at hfl
      split at hfl
      · simp only [h0, if_true, Res.ok.injEq] at hfl
        subst hfl; rfl
      · simp at hfl
    simp only [hs, if_true] at h ⊢
    split at h
    · rcases h with h | h
      · simp at h
      · simp only [FOut.failed.injEq] at h
        subst h
        exact ⟨rfl, rfl, fun h => by simp at h⟩
    · split at h
      · rename_i h0
        rcases h with h | h
        · simp only [FOut.ok.injEq] at h
          subst h; exact ⟨rfl, e0 h0, fun _ => h0⟩
        · simp at h
      · rename_i h0
        rcases h with h | h
        · simp at h
        · simp only [FOut.failed.injEq] at h
          subst h
          exact ⟨rfl, rfl, fun h => by simp [h0] at h⟩
    · split at h
      · rename_i h0
        rcases h with h | h
        · simp only [FOut.ok.injEq] at h
          subst h; exact ⟨rfl, e0 h0, fun _ => h0⟩
        · simp at h
      · rename_i h0
        rcases h with h | h
        · simp at h
        · simp only [FOut.failed.injEq] at h
          subst h
          exact ⟨rfl, rfl, fun h => by simp [h0] at h⟩
  | err => rw [hfl] at h; simp at h
  | ub => rw [hfl] at h; simp at h

theorem metaflush_lds (st : FState) (mdoff : Nat) : (st.metaflush mdoff).lds = st.lds := by
  unfold FState.metaflush
  simp only
  split <;> rfl

theorem gmetaflush_stray {g g' : GState} {f : Option Stop} {mdoff : Nat}
    (hg : g.metaflush f mdoff = .ok g' ∨ g.metaflush f mdoff = .failed g') :
    g'.stray = g.stray ∧ g'.st.lds = g.st.lds := by
  unfold GState.metaflush at hg
  simp only at hg
  split at hg
  · rcases hg with hg | hg
    · simp at hg
    · simp only [FOut.failed.injEq] at hg
      subst hg; exact ⟨rfl, rfl⟩
  · split at hg
    · rcases hg with hg | hg
      · simp at hg
      · simp only [FOut.failed.injEq] at hg
        subst hg; exact ⟨rfl, rfl⟩
    · rcases hg with hg | hg
      · simp only [FOut.ok.injEq] at hg
        subst hg; exact ⟨rfl, metaflush_lds _ _⟩
      · simp at hg
  · rcases hg with hg | hg
    · simp only [FOut.ok.injEq] at hg
      subst hg; exact ⟨rfl, metaflush_lds _ _⟩
    · simp at hg

theorem search_lds {st st' : FState} {fuel r : Nat} {qs : List RReq} {raw : List Hit} (h : st.search fuel r qs = .ok (raw, st')) :
    st'.lds = st.lds := by
  unfold FState.search at h
  split at h
  · obtain ⟨hs, _, h⟩ := Res.bind_ok h
    simp only [Res.pure_eq, Res.ok.injEq, Prod.mk.injEq] at h
    rw [← h.2]
  · split at h
    · simp at h
    · obtain ⟨ix, _, h⟩ := Res.bind_ok h
      obtain ⟨hs, _, h⟩ := Res.bind_ok h
      simp only [Res.pure_eq, Res.ok.injEq, Prod.mk.injEq] at h
      rw [← h.2]

theorem stray_goesOn {g g' : GState} (h : Spec.GoesOn g g') (hs : g.stray = true) :
    g'.stray = true ∧ g'.st.lds = g.st.lds := by
  induction h with
  | refl => exact ⟨hs, rfl⟩
  | addDset d _ ih => exact ih
  | setDims did dims _ ih => exact ih
  | @write _ st' r did bs data _ h ih =>
    unfold FState.write at h
    split at h
    · obtain ⟨k, _, h⟩ := Res.bind_ok h
      simp only [Res.pure_eq, Res.ok.injEq] at h
      subst h
      exact ih
    · simp at h
  | flush f doff _ hf h ih =>
    obtain ⟨a, b, _⟩ := stray_flush ih.1 h
    exact ⟨a, b.trans ih.2⟩
  | metaflush f mdoff _ hf h ih =>
    obtain ⟨a, b⟩ := gmetaflush_stray h
    exact ⟨a.trans ih.1, b.trans ih.2⟩
  | search fuel r qs _ hd h ih => exact ⟨ih.1, (search_lds h).trans ih.2⟩
  | @reopen g1 g2 doff mdoff np compact mbuf gone _ hf hf' h ih =>
    unfold GState.close at h
    cases hfl : g1.flush none doff with
    | ok g3 =>
      rw [hfl] at h
      simp only [FOut.bind, GState.metaflush, FOut.ok.injEq] at h
      subst h
      obtain ⟨a, b, _⟩ := stray_flush ih.1 (Or.inl hfl)
      exact ⟨a, (metaflush_lds _ _).trans (b.trans ih.2)⟩
    | failed g3 => rw [hfl] at h; simp [FOut.bind] at h
    | ub => rw [hfl] at h; simp [FOut.bind] at h

theorem inv_returns {cfg : Cfg} {gh : Ghost} {st : FState} {a : AFile} (inv : Inv cfg gh st a) {qs : List RReq} (hi : Spec.Served cfg st.compact a qs)
     (hq : Spec.ReqsWF st.compact a.dsets qs) (hv : Spec.Viewable qs) (hp : Spec.Repeats a.done qs) {r : Nat}
    (hr : r < a.queue.length) (he : a.epoch.flatten = []) (hm : st.mbuf = none ∨ a.done ≠ []) :
    Spec.Returns st r qs a.done := by
  refine ⟨gh.mdx.flatten.length, fun fuel hf fill mem => ?_⟩
  obtain ⟨h1, h2, h3⟩ := read_file inv hi hq hr he hm hf (fill := fill) (mem := mem)
  refine ⟨h1 hv, fun out hout => ?_⟩
  obtain ⟨mem', rfl⟩ := h2 hv out hout
  exact ⟨mem', rfl, h3 hp mem' hout⟩

theorem gfileFlush_none {g : GState} (hs : g.stray = false) {doff : Nat} {st' : FState} (h : g.st.fileFlush doff = .ok st') :
    g.fileFlush none doff = .ok { g with st := st' } := by
  unfold FState.fileFlush at h
  unfold GState.fileFlush
  split at h
  · rename_i hp
    rw [if_pos hp]
    exact gflush_none hs h
  · rename_i hp
    rw [if_neg hp]
    simp only [Res.ok.injEq] at h
    rw [← h]

/-- Histories without failures. -/
theorem reachF_of {cfg : Cfg} {st : FState} {a : AFile} (h : Spec.Reach cfg st a) : ReachF cfg ⟨st, false⟩ a := by
  induction h with
  | create compact mbuf np disk h h2 => exact .create compact mbuf np disk h h2
  | addDset d _ ih => exact .addDset d ih
  | setDims did dims d _ h1 h2 ih => exact .setDims did dims d ih h1 h2
  | write r w _ h1 h2 ih => exact .write r w ih h1 h2
  | flush doff _ h1 h2 h3 ih => exact .flush doff ih h1 (gfileFlush_none rfl h2) h3
  | prepare coll doff mdoff _ h1 h2 h3 h4 h5 h6 ih => exact .prepare coll doff mdoff ih h1 h2 h3 h4 (gprepare_none rfl h5) h6
  | search fuel r qs _ h1 h2 ih => exact .search fuel r qs ih h1 h2
  | reopen doff mdoff np compact mbuf gone _ h1 h2 h3 h4 h5 h6 h7 ih =>
    exact .reopen doff mdoff np compact mbuf gone ih h1 h2 h3 h4 h5 (gclose_none rfl doff mdoff h6) h7

/-- Blank after the flushes before a read. -/
theorem blank_prepare {g g' : GState} (h : Blank g.st) {coll : Bool} {doff mdoff : Nat} (hf : Fresh g.st doff) (hf' : Fresh g.st mdoff)
    (hg : g.prepare none none coll doff mdoff = .ok g') : Blank g'.st ∧ g'.st.metadirty = false := by
  obtain ⟨h1, _⟩ := gprepare_ok hg
  unfold FState.prepare at h1
  obtain ⟨st1, h2, h3⟩ := Res.bind_ok h1
  simp only [Res.pure_eq, Res.ok.injEq] at h3
  have b : Blank st1 ∧ ∀ e ∈ st1.mds, e.addr + e.size ≤ mdoff := by
    split at h2
    · obtain ⟨k1, k2, k3, k4⟩ := flush_keeps h2
      constructor
      · refine h.keep hf (by rw [k1]; exact List.prefix_refl _) (fun x hx => flush_below h2 hx) ?_
        rcases h.2 with hm | hm
        · exact Or.inl (k3 hm)
        · rw [k2]; exact Or.inr hm
      · rw [k1]
        exact fun e he => hf' e (List.mem_append_right _ he)
    · simp only [Res.ok.injEq] at h2
      subst h2
      exact ⟨h, fun e he => hf' e (List.mem_append_right _ he)⟩
  rw [← h3]
  split
  · refine ⟨?_, rfl⟩
    have b' : Blank { st1 with lds := [] } := b.1
    refine b'.keep (st' := st1.metaflush mdoff) (lo := mdoff) ?_ (metaflush_prefix st1 mdoff) (fun x hx => metaflush_below (st := st1) hx) (Or.inr ?_)
    · intro e he
      exact b.2 e (by simpa using he)
    · intro o ho
      simp only [FState.metaflush, List.mem_map] at ho
      obtain ⟨_, _, rfl⟩ := ho
      rfl
  · rename_i hd
    exact ⟨b.1, by simpa using hd⟩

/-- A flush of the metadata that creates its dataset and does not write it. -/
theorem blank_of_late {g g1 : GState} {d : Mem} {mdoff : Nat} (hd : g.st.metadirty = true)
    (h : g.metaflush (some (.late d)) mdoff = .failed g1)
    (hz : ∀ e ∈ g1.st.mds, e ∉ g.st.mds → ∀ x, e.addr ≤ x → x < e.addr + e.size → d x = 0)
    (hf : Fresh g.st mdoff) : Blank g1.st := by
  unfold GState.metaflush at h
  simp only at h
  split at h
  · rename_i ht
    simp only [FOut.failed.injEq] at h
    subst h
    have hz' := hz ⟨mdoff, (mdSizes g.st.ranks).sum⟩ (by simp) (by
      intro hm
      have := hf _ (List.mem_append_right _ hm)
      simp only at this
      omega)
    refine ⟨⟨g.st.mds.length, ⟨mdoff, (mdSizes g.st.ranks).sum⟩, by simp, by simp only; omega, ?_⟩, Or.inl hd⟩
    intro x h1 h2
    simp only at h1 h2
    unfold patch
    simp only [h1, h2, and_self, if_true]
    exact hz' x h1 h2
  · simp at h

end Verif
