import Verif.Spec.Crash
import Verif.Lemmas.FileTop

/-
A session never touches what was allocated before it.
-/

namespace Verif

open Spec (AW AFile WriteOK MayWrite Fresh Small Reach Session LeftBehind Life Known)

/-- What later operations leave alone. -/
structure Keeps (st0 st : FState) : Prop where
  cfg : st.cfg = st0.cfg
  saved : st.saved = st0.saved
  mds : ∃ m, st.mds = st0.mds ++ m
  lds : ∃ l, st.lds = st0.lds ++ l
  disk : ∀ e ∈ st0.lds ++ st0.mds, ∀ x < e.addr + e.size, st.disk x = st0.disk x

theorem Keeps.of_eq {st0 st : FState} (h1 : st.cfg = st0.cfg) (h2 : st.saved = st0.saved) (h3 : st.mds = st0.mds)
    (h4 : st.lds = st0.lds) (h5 : st.disk = st0.disk) : Keeps st0 st :=
  ⟨h1, h2, ⟨[], by simp [h3]⟩, ⟨[], by simp [h4]⟩, fun _ _ _ _ => by rw [h5]⟩

theorem Keeps.refl (st : FState) : Keeps st st := .of_eq rfl rfl rfl rfl rfl

theorem Keeps.ext {st0 st : FState} (h : Keeps st0 st) : ∀ e ∈ st0.lds ++ st0.mds, e ∈ st.lds ++ st.mds := by
  obtain ⟨m, hm⟩ := h.mds
  obtain ⟨l, hl⟩ := h.lds
  intro e he
  rw [hm, hl]
  simp only [List.mem_append] at he ⊢
  tauto

theorem Keeps.trans {st0 st1 st2 : FState} (h : Keeps st0 st1) (h' : Keeps st1 st2) : Keeps st0 st2 := by
  obtain ⟨m, hm⟩ := h.mds
  obtain ⟨l, hl⟩ := h.lds
  obtain ⟨m', hm'⟩ := h'.mds
  obtain ⟨l', hl'⟩ := h'.lds
  exact ⟨h'.cfg.trans h.cfg, h'.saved.trans h.saved, ⟨m ++ m', by rw [hm', hm, List.append_assoc]⟩,
    ⟨l ++ l', by rw [hl', hl, List.append_assoc]⟩,
    fun e he x hx => (h'.disk e (h.ext e he) x hx).trans (h.disk e he x hx)⟩

theorem foldl_writeAt_out {α : Type} (f : α → Nat) (g : α → List Byte) (x : Nat) : ∀ (l : List α) (disk : Mem),
    (∀ p ∈ l, x < f p) → l.foldl (fun d p => writeAt d (f p) (g p)) disk x = disk x
  | [], _, _ => rfl
  | p :: l, disk, h => by
    rw [List.foldl_cons, foldl_writeAt_out f g x l _ (fun q hq => h q (by simp [hq])),
      writeAt_out (Or.inl (h p (by simp)))]

theorem keeps_flush {st st' : FState} {doff : Nat} (h : st.flush doff = .ok st') (hf : Fresh st doff) :
    Keeps st st' := by
  unfold FState.flush at h
  split at h
  · simp only at h
    split at h
    · simp only [Res.ok.injEq] at h
      rw [← h]; exact .of_eq rfl rfl rfl rfl rfl
    · simp only [Res.ok.injEq] at h
      rw [← h]
      refine ⟨rfl, rfl, ⟨[], by simp⟩, ⟨_, rfl⟩, fun e he x hx => ?_⟩
      have := hf e he
      exact foldl_writeAt_out _ _ x _ _ (fun p _ => by omega)
  · simp at h

theorem keeps_metaflush (st : FState) {mdoff : Nat} (hf : Fresh st mdoff) : Keeps st (st.metaflush mdoff) := by
  unfold FState.metaflush
  simp only
  split
  · refine ⟨rfl, rfl, ⟨_, rfl⟩, ⟨[], by simp⟩, fun e he x hx => ?_⟩
    have := hf e he
    exact foldl_writeAt_out _ _ x _ _ (fun p _ => by omega)
  · exact .of_eq rfl rfl rfl rfl rfl

theorem keeps_write {st st' : FState} {r did : Nat} {bs : List Blk} {data : List Byte}
    (h : st.write r did bs data = .ok st') : Keeps st st' := by
  unfold FState.write at h
  split at h
  · obtain ⟨k, _, h⟩ := Res.bind_ok h
    simp only [Res.pure_eq, Res.ok.injEq] at h
    rw [← h]; exact .of_eq rfl rfl rfl rfl rfl
  · simp at h

theorem keeps_search {st st' : FState} {fuel r : Nat} {qs : List RReq} {raw : List Hit}
    (h : st.search fuel r qs = .ok (raw, st')) : Keeps st st' := by
  unfold FState.search at h
  split at h
  · obtain ⟨k, _, h⟩ := Res.bind_ok h
    simp only [Res.pure_eq, Res.ok.injEq, Prod.mk.injEq] at h
    rw [← h.2]; exact .refl _
  · split at h
    · simp at h
    · obtain ⟨ix, _, h⟩ := Res.bind_ok h
      obtain ⟨k, _, h⟩ := Res.bind_ok h
      simp only [Res.pure_eq, Res.ok.injEq, Prod.mk.injEq] at h
      rw [← h.2]; exact .of_eq rfl rfl rfl rfl rfl

theorem keeps_fileFlush {st st' : FState} {doff : Nat} (h : st.fileFlush doff = .ok st') (hf : Fresh st doff) :
    Keeps st st' := by
  unfold FState.fileFlush at h
  split at h
  · exact keeps_flush h hf
  · simp only [Res.ok.injEq] at h
    rw [← h]; exact .refl _

/-- Preparing a read: the metadata goes behind the data just flushed. -/
theorem keeps_prepare {cfg : Cfg} {g : Ghost} {st st' : FState} {a : AFile} (inv : Inv cfg g st a) {coll : Bool}
    {doff mdoff : Nat} (h : st.prepare coll doff mdoff = .ok st') (hf : Fresh st doff) (hf' : Fresh st mdoff)
    (hm : doff + Spec.queued a ≤ mdoff) : Keeps st st' := by
  unfold FState.prepare at h
  obtain ⟨st1, h1, h2⟩ := Res.bind_ok h
  simp only [Res.pure_eq, Res.ok.injEq] at h2
  have h3 : Keeps st st1 ∧ Fresh st1 mdoff := by
    split at h1
    · obtain ⟨st2, i1, i2, _, _, _, _, i3, _⟩ := inv_flush inv hf
      rw [h1, Res.ok.injEq] at i1
      subst i1
      exact ⟨keeps_flush h1 hf, fresh_after hf' i2 i3 hm⟩
    · simp only [Res.ok.injEq] at h1
      rw [← h1]; exact ⟨.refl _, hf'⟩
  rw [← h2]
  split
  · exact h3.1.trans (keeps_metaflush _ h3.2)
  · exact h3.1

theorem session_inv {cfg : Cfg} {st0 st : FState} {a0 a : AFile} (h : Session cfg st0 a0 st a)
    (h0 : ∃ g, Inv cfg g st0 a0) : ∃ g, Inv cfg g st a := by
  induction h with
  | start => exact h0
  | addDset d _ ih =>
    obtain ⟨g, i⟩ := ih
    refine ⟨g, ?_⟩
    have := inv_dsets i (dsExt_append _ d)
    unfold FState.addDset AFile.addDset
    rw [← i.dsets]; exact this
  | setDims did dims d _ h1 h2 ih =>
    obtain ⟨g, i⟩ := ih
    refine ⟨g, ?_⟩
    have := inv_dsets i (dsExt_setDims (dims := dims) (by rw [i.dsets]; exact h1) h2)
    unfold FState.setDims AFile.setDims
    rw [← i.dsets]; exact this
  | @write st a st' r w _ h1 h2 ih =>
    obtain ⟨g, i⟩ := ih
    have hr : r < a.queue.length := by
      rw [← i.np]
      by_contra hc
      unfold FState.write at h2
      rw [List.getElem?_eq_none (by omega)] at h2
      simp at h2
    obtain ⟨st1, g1, e, i1⟩ := inv_write i h1 hr
    rw [h2] at e
    simp only [Res.ok.injEq] at e
    subst e
    exact ⟨g1, i1⟩
  | flush doff _ h1 h2 h3 ih =>
    obtain ⟨g, i⟩ := ih
    obtain ⟨st1, e, _, _, _, _, _, _, h4⟩ := inv_fileFlush i h1
    rw [h2] at e
    simp only [Res.ok.injEq] at e
    subst e
    obtain ⟨g1, i1, _⟩ := h4 h3
    exact ⟨g1, i1⟩
  | prepare coll doff mdoff _ h1 h2 h3 h4 h5 h6 ih =>
    obtain ⟨g, i⟩ := ih
    obtain ⟨st1, e, h7⟩ := inv_prepare i h1 h2 h3 h4
    rw [h5] at e
    simp only [Res.ok.injEq] at e
    subst e
    exact h7 h6
  | search fuel r qs _ _ h1 ih =>
    obtain ⟨g, i⟩ := ih
    exact ⟨g, inv_search i h1⟩

theorem session_keeps {cfg : Cfg} {st0 st : FState} {a0 a : AFile} (h : Session cfg st0 a0 st a)
    (h0 : ∃ g, Inv cfg g st0 a0) : Keeps st0 st := by
  induction h with
  | start => exact .refl _
  | addDset d _ ih => exact ih.trans (.of_eq rfl rfl rfl rfl rfl)
  | setDims did dims d _ h1 h2 ih => exact ih.trans (.of_eq rfl rfl rfl rfl rfl)
  | write r w _ h1 h2 ih => exact ih.trans (keeps_write h2)
  | flush doff _ h1 h2 h3 ih => exact ih.trans (keeps_fileFlush h2 h1)
  | prepare coll doff mdoff hs h1 h2 h3 h4 h5 h6 ih =>
    obtain ⟨g, inv⟩ := session_inv hs h0
    exact ih.trans (keeps_prepare inv h5 h1 h2 h3)
  | search fuel r qs _ h1 h2 ih => exact ih.trans (keeps_search h2)

/-- Opening the file after the crash of a session that began in a state with nothing queued and nothing
unsaved. -/
theorem inv_crash {cfg : Cfg} {g : Ghost} {st0 st st' : FState} {a0 : AFile} (h : Inv cfg g st0 a0)
    (he : a0.epoch.flatten = []) (hs : st0.saved = st0.mds.length) (hk : Keeps st0 st) (hsm : Small st)
    (hl : LeftBehind st0 st st') {np : Nat} (h0 : 0 < np) (h1 : np < 2 ^ 31) (compact : Bool)
    (mbuf : Option Nat) (gone : Nat → Bool) :
    Inv cfg ⟨g.ls, g.mdx, List.replicate np ⟨Rank.init, [], []⟩⟩
      (st'.reopen np compact mbuf gone) (({ a0 with dsets := st'.dsets }).reopen np gone) := by
  obtain ⟨off, hoff, hdisk⟩ := hl.disk
  obtain ⟨m, hm⟩ := hk.mds
  have hmds : st'.mds.take st'.saved = st0.mds := by
    rw [hl.mds, hl.saved, hk.saved, hs, hm]; simp
  have hd : ∀ e ∈ st0.lds ++ st0.mds, ∀ x < e.addr + e.size, st'.disk x = st0.disk x := by
    intro e he' x hx
    rw [hdisk x (by have := hoff e (hk.ext e he'); omega)]
    exact hk.disk e he' x hx
  have hext : DsExt st0.dsets st'.dsets := by
    intro did
    refine ⟨hl.gone did, fun d hd' => ?_⟩
    obtain ⟨dims, e1, e2⟩ := hl.here did d hd'
    exact ⟨_, e2, e1.symm, rfl⟩
  have hkn : ∀ w, Known st0.dsets w →
      Known (st'.dsets.mapIdx (fun i o => if gone i then none else o)) w := by
    intro w hw
    obtain ⟨k1, k2⟩ := hext.known hw
    refine ⟨by simpa using k1, ?_⟩
    intro d hd'
    rw [List.getElem?_mapIdx] at hd'
    apply k2
    cases hh : st'.dsets[w.did]? with
    | none => rw [hh] at hd'; simp at hd'
    | some o =>
      rw [hh] at hd'
      simp only [Option.map_some, Option.some.injEq] at hd'
      split at hd'
      · simp at hd'
      · rw [hd']
  have hfl : (List.replicate np (RS.mk Rank.init [] [])).flatMap RS.fl = [] := by
    rw [List.flatMap_eq_nil_iff]
    intro x hx
    rw [(List.mem_replicate.mp hx).2]
  unfold FState.reopen
  rw [hmds]
  constructor
  case cfgEq => exact (hl.cfg.trans hk.cfg).trans h.cfgEq
  case dsets => simp only [AFile.reopen]
  case ranks => simp
  case queue => simp [AFile.reopen]
  case epoch => simp [AFile.reopen]
  case idxl => simp
  case np0 => simpa using h0
  case np1 => simpa using h1
  case rok =>
    intro x hx
    rw [(List.mem_replicate.mp hx).2]
    exact RSOK.init cfg
  case wokm => exact fun x hx => ⟨(h.wokm x hx).1, hkn _ (h.wokm x hx).2⟩
  case wokr =>
    intro y hy x hx
    rw [(List.mem_replicate.mp hy).2] at hx
    simp at hx
  case lay => exact h.lay
  case sto =>
    intro x hx i hi
    obtain ⟨e, e1, e2, e3⟩ := h.inl x hx
    rw [← h.sto x hx i hi]
    exact hd e (by simp [e1]) _ (by omega)
  case done => exact h.done
  case perm =>
    have := h.perm
    rw [h.fl_nil he] at this
    simp only [hfl]
    exact this
  case inl =>
    intro x hx
    obtain ⟨e, e1, e2⟩ := h.inl x hx
    refine ⟨e, ?_, e2⟩
    exact hl.old e e1
  case small =>
    intro e he'
    apply hsm e
    simp only [List.mem_append] at he' ⊢
    rw [hm]
    rcases he' with he' | he'
    · exact Or.inl (hl.new e he')
    · exact Or.inr (by simp [he'])
  case md =>
    have : ∀ e ∈ st0.mds, ∀ s, MdOK st0.disk e s → MdOK st'.disk e s := by
      intro e he' s hs'
      refine ⟨?_, hs'.pos, hs'.num⟩
      rw [← hs'.bytes]
      exact fileBytes_congr (fun x _ hx => hd e (by simp [he']) x hx)
    have key : ∀ {ms : List Ext} {xs}, List.Forall₂ (MdOK st0.disk) ms xs → (∀ e ∈ ms, e ∈ st0.mds) →
        List.Forall₂ (MdOK st'.disk) ms xs := by
      intro ms xs hf
      induction hf with
      | nil => exact fun _ => .nil
      | cons h1 _ ih => exact fun hmem => .cons (this _ (hmem _ (by simp)) _ h1) (ih (fun e he' => hmem e (by simp [he'])))
    exact key h.md (fun e he' => he')
  case sec => exact h.sec
  case ord => exact h.ord
  case cache =>
    intro i ix hi
    simp only at hi
    obtain ⟨hl, e⟩ := List.getElem?_eq_some_iff.mp hi
    simp at e
  case dirty => simp [AFile.reopen]

theorem reopen_epoch (a : AFile) (np : Nat) (gone : Nat → Bool) : (a.reopen np gone).epoch.flatten = [] := by
  simp [AFile.reopen]

/-- All lives. -/
theorem life_inv {cfg : Cfg} {st : FState} {a : AFile} (h : Life cfg st a) :
    (∃ g, Inv cfg g st a) ∧ a.epoch.flatten = [] ∧ a.queue.flatten = [] ∧ st.saved = st.mds.length := by
  induction h with
  | create compact mbuf np disk h h2 =>
    exact ⟨⟨_, inv_create h h2⟩, by simp [AFile.create], by simp [AFile.create], rfl⟩
  | close doff mdoff np compact mbuf gone _ hs h1 h2 h3 h4 h5 h6 h7 ih =>
    obtain ⟨g, i⟩ := session_inv hs ih.1
    obtain ⟨st2, e, h8⟩ := inv_close i h1 h2 h3
    rw [h6] at e
    simp only [Res.ok.injEq] at e
    subst e
    obtain ⟨g2, i2⟩ := h8 h7
    refine ⟨⟨_, inv_reopen i2 (by simp [AFile.metaflush]) h4 h5 compact mbuf gone⟩, reopen_epoch _ _ _,
      by simp [AFile.reopen], by simp [FState.reopen]⟩
  | die np compact mbuf gone _ hs hn hl h4 h5 ih =>
    obtain ⟨⟨g, i⟩, e1, e2, e3⟩ := ih
    obtain ⟨g', i'⟩ := session_inv hs ⟨g, i⟩
    have hk := session_keeps hs ⟨g, i⟩
    refine ⟨⟨_, inv_crash i e1 e3 hk i'.small hl h4 h5 compact mbuf gone⟩, reopen_epoch _ _ _,
      by simp [AFile.reopen], ?_⟩
    simp only [FState.reopen]
    rw [List.length_take, hl.saved, hl.mds, hk.saved, e3]
    obtain ⟨m, hm⟩ := hk.mds
    rw [hm]; simp

/-- Every history is a session of some life. -/
theorem reach_session {cfg : Cfg} {st : FState} {a : AFile} (h : Reach cfg st a) :
    ∃ st0 a0, Life cfg st0 a0 ∧ Session cfg st0 a0 st a := by
  induction h with
  | create compact mbuf np disk h h2 => exact ⟨_, _, .create compact mbuf np disk h h2, .start⟩
  | addDset d _ ih =>
    obtain ⟨st0, a0, h1, h2⟩ := ih
    exact ⟨st0, a0, h1, h2.addDset d⟩
  | setDims did dims d _ i1 i2 ih =>
    obtain ⟨st0, a0, h1, h2⟩ := ih
    exact ⟨st0, a0, h1, h2.setDims did dims d i1 i2⟩
  | write r w _ i1 i2 ih =>
    obtain ⟨st0, a0, h1, h2⟩ := ih
    exact ⟨st0, a0, h1, h2.write r w i1 i2⟩
  | flush doff _ i1 i2 i3 ih =>
    obtain ⟨st0, a0, h1, h2⟩ := ih
    exact ⟨st0, a0, h1, h2.flush doff i1 i2 i3⟩
  | prepare coll doff mdoff _ i1 i2 i3 i4 i5 i6 ih =>
    obtain ⟨st0, a0, h1, h2⟩ := ih
    exact ⟨st0, a0, h1, h2.prepare coll doff mdoff i1 i2 i3 i4 i5 i6⟩
  | search fuel r qs _ i1 i2 ih =>
    obtain ⟨st0, a0, h1, h2⟩ := ih
    exact ⟨st0, a0, h1, h2.search fuel r qs i1 i2⟩
  | reopen doff mdoff np compact mbuf gone _ i1 i2 i3 i4 i5 i6 i7 ih =>
    obtain ⟨st0, a0, h1, h2⟩ := ih
    exact ⟨_, _, .close doff mdoff np compact mbuf gone h1 h2 i1 i2 i3 i4 i5 i6 i7, .start⟩

end Verif
