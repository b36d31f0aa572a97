import Verif.Lemmas.FlushFail
import Verif.Spec.WriteFail

/-
Writes that fail: the table of selections is the only thing that changes, and it does not matter to other selections.
-/

namespace Verif

open Spec (AW AFile WriteOK MayWrite Fresh Small Known Reach ReachW Unlike Traceless SameSel Confined)

/-! ### Everything but the table -/

def Rank.bare (k : Rank) : Rank := { k with hash := [] }

def FState.bare (st : FState) : FState := { st with ranks := st.ranks.map Rank.bare }

theorem bare_get {α : Type} (f : FState → α) (hf : ∀ s : FState, f s.bare = f s) {st s : FState} (h : st.bare = s.bare) : f st = f s := by
  rw [← hf st, h, hf s]

theorem rank_get {α : Type} (f : Rank → α) (hf : ∀ k : Rank, f k.bare = f k) {k s : Rank} (h : k.bare = s.bare) : f k = f s := by
  rw [← hf k, h, hf s]

def resMap {α β : Type} (f : α → β) : Res α → Res β
  | .ok x => .ok (f x)
  | .err => .err
  | .ub => .ub

theorem resMap_ok {α β : Type} {f : α → β} {x : Res α} {y : β} (h : resMap f x = .ok y) : ∃ z, x = .ok z ∧ f z = y := by
  cases x with
  | ok z => exact ⟨z, rfl, by simpa [resMap] using h⟩
  | err => simp [resMap] at h
  | ub => simp [resMap] at h

theorem flush_bare (st : FState) (doff : Nat) : st.bare.flush doff = resMap FState.bare (st.flush doff) := by
  unfold FState.flush FState.bare
  simp only [List.all_map, List.map_map]
  rw [show ((fun k : Rank => k.pending.all (fun r => decide (r.data.length < 2 ^ 31))) ∘ Rank.bare) =
      fun k : Rank => k.pending.all (fun r => decide (r.data.length < 2 ^ 31)) from rfl,
    show Rank.localSize ∘ Rank.bare = Rank.localSize from rfl]
  split
  · split
    · simp only [resMap, List.map_map]
      rfl
    · simp only [resMap, List.zipWith_map_left, List.map_zipWith]
      rw [zip_map_left', List.foldl_map]
      rfl
  · rfl

theorem pending_bare (st : FState) : st.bare.anyPending = st.anyPending := by
  unfold FState.anyPending FState.bare
  rw [List.any_map]
  rfl

theorem fileFlush_bare (st : FState) (doff : Nat) : st.bare.fileFlush doff = resMap FState.bare (st.fileFlush doff) := by
  unfold FState.fileFlush
  rw [pending_bare]
  split
  · exact flush_bare st doff
  · rfl

theorem mdSizes_bare (ks : List Rank) : mdSizes (ks.map Rank.bare) = mdSizes ks := by
  unfold mdSizes
  apply List.ext_getElem
  · simp
  · intro i h1 h2; simp [Rank.bare]

theorem mdBufs_bare (ks : List Rank) : mdBufs (ks.map Rank.bare) = mdBufs ks := by
  unfold mdBufs
  rw [mdSizes_bare]
  apply List.ext_getElem
  · simp
  · intro i h1 h2; simp [Rank.bare, Rank.metaBytes]

theorem metaflush_bare (st : FState) (mdoff : Nat) : st.bare.metaflush mdoff = st.metaflush mdoff := by
  unfold FState.metaflush FState.bare
  simp only [mdSizes_bare, mdBufs_bare, List.length_map, List.map_map]
  split <;> rfl

theorem bare_metaflush (st : FState) (mdoff : Nat) : (st.metaflush mdoff).bare = st.metaflush mdoff := by
  unfold FState.metaflush FState.bare
  simp only [List.map_map]
  rfl

theorem prepare_bare (st : FState) (coll : Bool) (doff mdoff : Nat) :
    st.bare.prepare coll doff mdoff = resMap FState.bare (st.prepare coll doff mdoff) := by
  unfold FState.prepare
  rw [pending_bare, show st.bare.ranks.length = st.ranks.length from by simp [FState.bare], flush_bare]
  have key : ∀ s : FState, (if s.bare.metadirty then s.bare.metaflush mdoff else s.bare) =
      (if s.metadirty then s.metaflush mdoff else s).bare := by
    intro s
    rw [show s.bare.metadirty = s.metadirty from rfl, metaflush_bare]
    split
    · exact (bare_metaflush s mdoff).symm
    · rfl
  split
  · cases st.flush doff with
    | ok s => simp only [resMap, Res.ok_bind, Res.pure_eq, key]
    | err => rfl
    | ub => rfl
  · simp only [resMap, Res.ok_bind, Res.pure_eq, key]

theorem close_bare (st : FState) (doff mdoff : Nat) : st.bare.close doff mdoff = st.close doff mdoff := by
  unfold FState.close
  rw [flush_bare]
  cases st.flush doff with
  | ok s => simp only [resMap, Res.ok_bind, metaflush_bare]
  | err => rfl
  | ub => rfl

theorem loadLoop_bare (st : FState) (lim : Nat) (qs : List RReq) : ∀ fuel pos,
    loadLoop st.bare lim qs fuel pos = loadLoop st lim qs fuel pos := by
  intro fuel
  induction fuel with
  | zero => intro pos; rfl
  | succ n ih =>
    intro pos
    unfold loadLoop
    simp only [ih]
    rfl

theorem search_bare (st : FState) (fuel r : Nat) (qs : List RReq) :
    st.bare.search fuel r qs = resMap (fun p => (p.1, p.2.bare)) (st.search fuel r qs) := by
  unfold FState.search
  cases hm : st.mbuf with
  | some lim =>
    rw [show st.bare.mbuf = some lim from hm]
    simp only [loadLoop_bare]
    cases loadLoop st lim qs fuel (0, 0) <;> rfl
  | none =>
    rw [show st.bare.mbuf = none from hm]
    simp only
    rw [show st.bare.idx = st.idx from rfl]
    cases st.idx[r]? with
    | none => rfl
    | some o =>
      simp only
      rw [show loadAll st.bare.dsets st.bare.cfg.share st.bare.disk st.bare.mds (Idx.empty st.bare.compact) =
        loadAll st.dsets st.cfg.share st.disk st.mds (Idx.empty st.compact) from rfl]
      cases o with
      | some ix =>
        simp only [Res.ok_bind]
        cases flatMapRes ix.search qs <;> rfl
      | none =>
        simp only
        cases loadAll st.dsets st.cfg.share st.disk st.mds (Idx.empty st.compact) with
        | ok ix =>
          simp only [Res.ok_bind]
          cases flatMapRes ix.search qs <;> rfl
        | err => rfl
        | ub => rfl

theorem reads_bare (st : FState) (fuel r : Nat) (fill : Nat → Option (List Byte)) (qs : List RReq) (mem : Mem) (out : Res Mem) :
    st.bare.reads fuel r fill qs mem out ↔ st.reads fuel r fill qs mem out := by
  unfold FState.reads
  rw [search_bare, show st.bare.disk = st.disk from rfl]
  constructor
  · rintro (⟨raw, s', hs, h1, h2, h3⟩ | ⟨h1, h2⟩ | ⟨h1, h2⟩)
    · obtain ⟨⟨raw', s''⟩, e1, e2⟩ := resMap_ok h1
      simp only [Prod.mk.injEq] at e2
      refine Or.inl ⟨raw', s'', hs, e1, ?_, h3⟩
      rw [e2.1]; exact h2
    · refine Or.inr (Or.inl ⟨?_, h2⟩)
      cases hs : st.search fuel r qs <;> rw [hs] at h1 <;> simp [resMap] at h1 ⊢
    · refine Or.inr (Or.inr ⟨?_, h2⟩)
      cases hs : st.search fuel r qs <;> rw [hs] at h1 <;> simp [resMap] at h1 ⊢
  · rintro (⟨raw, s', hs, h1, h2, h3⟩ | ⟨h1, h2⟩ | ⟨h1, h2⟩)
    · exact Or.inl ⟨raw, s'.bare, hs, by rw [h1]; rfl, h2, h3⟩
    · exact Or.inr (Or.inl ⟨by rw [h1]; rfl, h2⟩)
    · exact Or.inr (Or.inr ⟨by rw [h1]; rfl, h2⟩)

/-- States that differ in the table only return the same. -/
theorem returns_bare {st s : FState} (h : st.bare = s.bare) {r : Nat} {qs : List RReq} {done : List AW} (hr : Spec.Returns s r qs done) :
    Spec.Returns st r qs done := by
  obtain ⟨n, hn⟩ := hr
  have e : ∀ fuel fill mem out, st.reads fuel r fill qs mem out ↔ s.reads fuel r fill qs mem out := by
    intro fuel fill mem out
    rw [← reads_bare st, ← reads_bare s, h]
  refine ⟨n, fun fuel hf fill mem => ?_⟩
  obtain ⟨⟨m, h1⟩, h2⟩ := hn fuel hf fill mem
  exact ⟨⟨m, (e _ _ _ _).mpr h1⟩, fun out ho => h2 out ((e _ _ _ _).mp ho)⟩

theorem bare_op {op : FState → Res FState} (hop : ∀ st, op st.bare = resMap FState.bare (op st)) {st s st' : FState}
    (h : st.bare = s.bare) (h1 : op st = .ok st') : ∃ s', op s = .ok s' ∧ st'.bare = s'.bare := by
  have e1 := hop st
  rw [h1, h, hop s] at e1
  obtain ⟨z, hz, e2⟩ := resMap_ok e1
  exact ⟨z, hz, e2.symm⟩

/-! ### The table -/

theorem hashFind_snoc (r k : WReq) (ks : List WReq) : hashFind r (ks ++ [k]) =
    (hashFind r ks >>= fun o => match o with
      | some x => .ok (some x)
      | none => hashFind r [k]) := by
  induction ks with
  | nil => rfl
  | cons x ks ih =>
    rw [List.cons_append, hashFind, hashFind]
    split
    · cases wreqEq r x with
      | ok b =>
        simp only [Res.ok_bind]
        cases b with
        | true => rfl
        | false => simpa using ih
      | err => rfl
      | ub => rfl
    · exact ih

/-- Lookup does not look at the data. -/
theorem find_data (cfg : Cfg) (d : DInfo) (did : Nat) (bs : List Blk) (mo : Nat) (x y : List Byte) (ks : List WReq) :
    hashFind (mkWReq cfg d did bs mo x) ks = hashFind (mkWReq cfg d did bs mo y) ks := by
  induction ks with
  | nil => rfl
  | cons k ks ih => rw [hashFind, hashFind, ih]; rfl

/-- The key stands for the selection of the write. -/
def KeyOf (cfg : Cfg) (w : AW) (k : WReq) : Prop :=
  wreqHash (AW.plain cfg w 0 0) = wreqHash k ∧ wreqEq (AW.plain cfg w 0 0) k = .ok true

theorem hashFind_none {r : WReq} {ks : List WReq} (h : hashFind r ks = .ok none) :
    ∀ k ∈ ks, wreqHash r = wreqHash k → wreqEq r k ≠ .ok true := by
  induction ks with
  | nil => simp
  | cons x ks ih =>
    intro k hk hh
    rw [hashFind] at h
    rw [List.mem_cons] at hk
    rcases hk with rfl | hk
    · rw [if_pos hh] at h
      intro e
      rw [e] at h
      simp at h
    · split at h
      · obtain ⟨b, hb, h⟩ := Res.bind_ok h
        cases b with
        | true => simp at h
        | false => exact ih (by simpa using h) k hk hh
      · exact ih h k hk hh

theorem hashFind_some {r k : WReq} {ks : List WReq} (h : hashFind r ks = .ok (some k)) :
    k ∈ ks ∧ wreqHash r = wreqHash k ∧ wreqEq r k = .ok true := by
  induction ks with
  | nil => simp [hashFind] at h
  | cons x ks ih =>
    rw [hashFind] at h
    split at h
    · rename_i hh
      obtain ⟨b, hb, h⟩ := Res.bind_ok h
      cases b with
      | true =>
        simp only [if_true, Res.pure_eq, Res.ok.injEq, Option.some.injEq] at h
        subst h
        exact ⟨by simp, hh, hb⟩
      | false =>
        obtain ⟨h1, h2⟩ := ih (by simpa using h)
        exact ⟨by simp [h1], h2⟩
    · obtain ⟨h1, h2⟩ := ih h
      exact ⟨by simp [h1], h2⟩

/-- Lookup of a selection among others that are different from it. -/
theorem apart_find {cfg : Cfg} (hs : cfg.share = true) {w v : AW} (hw : WriteOK cfg w) (hv : WriteOK cfg v) (h : Unlike cfg w v)
    (mo mo' : Nat) : hashFind (AW.plain cfg w mo 0) [mkWReq cfg v.d v.did v.bs mo' []] = .ok none := by
  have hnm : NoMixed cfg w { v with data := [] } := (noMixed_write hw hv h.mix hs : NoMixed cfg w v)
  obtain ⟨b, hb, ht⟩ := wreqEq_plain hnm mo mo'
  rw [hashFind]
  split
  · rw [show mkWReq cfg v.d v.did v.bs mo' [] = AW.plain cfg { v with data := [] } mo' 0 from rfl, hb]
    simp only [Res.ok_bind]
    cases b with
    | false => rfl
    | true =>
      obtain ⟨h1, h2⟩ := ht rfl
      exact (h.sel (sameSel_of_shares (recordable_of hv (Int.le_refl 0) (by decide)).awf
        (recordable_of hw (Int.le_refl 0) (by decide)).awf ⟨h2, h1⟩)).elim
  · rfl

/-- The tables give the same answer for selections different from those of the given writes. -/
def SameFor (cfg : Cfg) (f : List AW) (h h' : List WReq) : Prop :=
  ∀ w mo, WriteOK cfg w → (∀ v ∈ f, Unlike cfg w v) → hashFind (AW.plain cfg w mo 0) h = hashFind (AW.plain cfg w mo 0) h'

theorem SameFor.refl (cfg : Cfg) (f : List AW) (h : List WReq) : SameFor cfg f h h := fun _ _ _ _ => rfl

theorem SameFor.more {cfg : Cfg} {f : List AW} {h h' : List WReq} (hs : SameFor cfg f h h') (v : AW) : SameFor cfg (f ++ [v]) h h' :=
  fun w mo hw ha => hs w mo hw (fun v hv => ha v (by simp [hv]))

theorem SameFor.snoc {cfg : Cfg} {f : List AW} {h h' : List WReq} (hs : SameFor cfg f h h') (k : WReq) :
    SameFor cfg f (h ++ [k]) (h' ++ [k]) := by
  intro w mo hw ha
  rw [hashFind_snoc, hashFind_snoc, hs w mo hw ha]

theorem SameFor.failed {cfg : Cfg} (hsh : cfg.share = true) {f : List AW} {h h' : List WReq} (hs : SameFor cfg f h h') {v : AW}
    (hv : WriteOK cfg v) (mo' : Nat) : SameFor cfg (f ++ [v]) (h ++ [mkWReq cfg v.d v.did v.bs mo' []]) h' := by
  intro w mo hw ha
  rw [hashFind_snoc, apart_find hsh hw hv (ha v (by simp)), hs w mo hw (fun v hv => ha v (by simp [hv]))]
  cases hashFind (AW.plain cfg w mo 0) h' with
  | ok o => cases o <;> rfl
  | err => rfl
  | ub => rfl

theorem keyOf_self (cfg : Cfg) (w : AW) (mo : Nat) : KeyOf cfg w (mkWReq cfg w.d w.did w.bs mo w.data) := by
  refine ⟨rfl, ?_⟩
  unfold wreqEq
  rw [show (AW.plain cfg w 0 0).metaSize = (mkWReq cfg w.d w.did w.bs mo w.data).metaSize from rfl,
    show (AW.plain cfg w 0 0).selBuf = (mkWReq cfg w.d w.did w.bs mo w.data).selBuf from rfl]
  simp

/-- What a write that fails does to the table. -/
theorem fails_hash {cfg : Cfg} {d : DInfo} {did : Nat} {bs : List Blk} {k k' : Rank} (h : writeRankFails cfg d did bs k = .ok k') :
    k'.bare = k.bare ∧ (k'.hash = k.hash ∨ cfg.share = true ∧ bs ≠ [] ∧ 8 < (selBytes cfg d bs).length ∧
      hashFind (mkWReq cfg d did bs k.mdsize []) k.hash = .ok none ∧ k'.hash = k.hash ++ [mkWReq cfg d did bs k.mdsize []]) := by
  unfold writeRankFails at h
  split at h
  · simp only [Res.ok.injEq] at h
    subst h
    exact ⟨rfl, Or.inl rfl⟩
  · rename_i hne
    obtain ⟨x, hx, h⟩ := Res.bind_ok h
    simp only [Res.pure_eq, Res.ok.injEq] at h
    subst h
    refine ⟨rfl, ?_⟩
    unfold dedup at hx
    split at hx
    · rename_i hc
      simp only [Bool.and_eq_true, decide_eq_true_eq] at hc
      obtain ⟨o, ho, hx⟩ := Res.bind_ok hx
      cases o with
      | none =>
        simp only [Res.pure_eq, Res.ok.injEq] at hx
        subst hx
        exact Or.inr ⟨hc.1, hne, hc.2, ho, rfl⟩
      | some y =>
        simp only [Res.pure_eq, Res.ok.injEq] at hx
        subst hx
        exact Or.inl rfl
    · simp only [Res.pure_eq, Res.ok.injEq] at hx
      subst hx
      exact Or.inl rfl

/-- A write that succeeds does the same with both tables. -/
theorem writeRank_bare {cfg : Cfg} {w : AW} {k k' s : Rank} {f : List AW} (hw : WriteOK cfg w) (hb : k.bare = s.bare)
    (hh : cfg.share = true → SameFor cfg f k.hash s.hash) (ha : cfg.share = true → ∀ v ∈ f, Unlike cfg w v)
    (h : writeRank cfg w.d w.did w.bs w.data k = .ok k') :
    ∃ s', writeRank cfg w.d w.did w.bs w.data s = .ok s' ∧ k'.bare = s'.bare ∧
      (cfg.share = true → SameFor cfg f k'.hash s'.hash) ∧ (∀ x ∈ k.hash, x ∈ k'.hash) ∧
      (cfg.share = true → 8 < (selBytes cfg w.d w.bs).length → ∃ x ∈ k'.hash, KeyOf cfg w x) := by
  have hm : s.mdsize = k.mdsize := (congrArg Rank.mdsize hb).symm
  have hq : s.wreqs = k.wreqs := (congrArg Rank.wreqs hb).symm
  have hn : s.nflushed = k.nflushed := (congrArg Rank.nflushed hb).symm
  unfold writeRank at h ⊢
  have hne : w.bs ≠ [] := hw.sel.ne
  rw [if_neg hne] at h ⊢
  obtain ⟨x, hx, h⟩ := Res.bind_ok h
  simp only [Res.pure_eq, Res.ok.injEq] at h
  subst h
  unfold dedup at hx ⊢
  rw [hm]
  split at hx
  · rename_i hc
    rw [if_pos hc]
    simp only [Bool.and_eq_true, decide_eq_true_eq] at hc
    obtain ⟨o, ho, hx⟩ := Res.bind_ok hx
    have e := hh hc.1 w k.mdsize hw (ha hc.1)
    rw [show AW.plain cfg w k.mdsize 0 = mkWReq cfg w.d w.did w.bs k.mdsize w.data from rfl, ho] at e
    rw [← e]
    cases o with
    | none =>
      simp only [Res.pure_eq, Res.ok.injEq] at hx
      subst hx
      refine ⟨_, rfl, ?_, fun _ => (hh hc.1).snoc _, fun y hy => by simp [hy], fun _ _ => ⟨_, ?_, keyOf_self cfg w k.mdsize⟩⟩
      · simp [Rank.bare, hq, hn]
      · simp
    | some y =>
      simp only [Res.pure_eq, Res.ok.injEq] at hx
      subst hx
      obtain ⟨h1, h2, h3⟩ := hashFind_some ho
      refine ⟨_, rfl, ?_, fun _ => hh hc.1, fun y hy => hy, fun _ _ => ⟨y, h1, h2, h3⟩⟩
      simp [Rank.bare, hq, hn]
  · rename_i hc
    simp only [Res.pure_eq, Res.ok.injEq] at hx
    subst hx
    rw [if_neg hc]
    refine ⟨_, rfl, ?_, hh, fun y hy => hy, fun h1 h2 => (hc ?_).elim⟩
    · simp [Rank.bare, hq, hn]
    · rw [h1, Bool.true_and]
      exact decide_eq_true h2

/-! ### Histories -/

/-- The state of a history with failed writes and that of one without them. -/
structure SimW (cfg : Cfg) (F : List (List AW)) (a : AFile) (st s : FState) : Prop where
  bare : st.bare = s.bare
  len : F.length = st.ranks.length
  hash : cfg.share = true → ∀ (r : Nat) (k k' : Rank) (f : List AW), st.ranks[r]? = some k → s.ranks[r]? = some k' → F[r]? = some f →
    SameFor cfg f k.hash k'.hash
  keys : cfg.share = true → ∀ (r : Nat) (k : Rank) (p q : List AW), st.ranks[r]? = some k → a.epoch[r]? = some p → a.queue[r]? = some q →
    ∀ w ∈ p ++ q, 8 < (selBytes cfg w.d w.bs).length → ∃ x ∈ k.hash, KeyOf cfg w x

theorem SimW.ranks {cfg : Cfg} {F : List (List AW)} {a : AFile} {st s : FState} (h : SimW cfg F a st s) :
    st.ranks.map Rank.bare = s.ranks.map Rank.bare := congrArg FState.ranks h.bare

theorem SimW.ranksLen {cfg : Cfg} {F : List (List AW)} {a : AFile} {st s : FState} (h : SimW cfg F a st s) :
    st.ranks.length = s.ranks.length := by
  have := congrArg List.length h.ranks
  simpa using this

theorem SimW.rank {cfg : Cfg} {F : List (List AW)} {a : AFile} {st s : FState} (h : SimW cfg F a st s) {r : Nat} {k : Rank}
    (hk : st.ranks[r]? = some k) : ∃ k', s.ranks[r]? = some k' ∧ k.bare = k'.bare := by
  have e := congrArg (fun l => l[r]?) h.ranks
  simp only [List.getElem?_map, hk, Option.map_some] at e
  cases hs : s.ranks[r]? with
  | none => rw [hs] at e; simp at e
  | some k' =>
    rw [hs] at e
    exact ⟨k', rfl, by simpa using e⟩

theorem SimW.fresh {cfg : Cfg} {F : List (List AW)} {a : AFile} {st s : FState} (h : SimW cfg F a st s) {n : Nat} (hf : Fresh st n) :
    Fresh s n := by
  unfold Fresh at hf ⊢
  rw [show s.lds = st.lds from (congrArg FState.lds h.bare).symm, show s.mds = st.mds from (congrArg FState.mds h.bare).symm]
  exact hf

theorem small_bare {st s : FState} (h : st.bare = s.bare) (hf : Small st) : Small s := by
  unfold Small at hf ⊢
  rw [show s.lds = st.lds from (congrArg FState.lds h).symm, show s.mds = st.mds from (congrArg FState.mds h).symm]
  exact hf

theorem set_bare {ks ss : List Rank} (h : ks.map Rank.bare = ss.map Rank.bare) {r : Nat} {k s : Rank} (e : k.bare = s.bare) :
    (ks.set r k).map Rank.bare = (ss.set r s).map Rank.bare := by
  rw [List.map_set, List.map_set, h, e]

/-- Short selections do not get into the table. -/
theorem short_sel {cfg : Cfg} {w : AW} (hw : WriteOK cfg w) (hc : Confined w) (hd : w.d.ndim = 1) (hl : w.bs.length = 1) :
    ¬ 8 < (selBytes cfg w.d w.bs).length := by
  have awf := (recordable_of hw (Int.le_refl 0) (by decide) : Spec.Recordable cfg w 0).awf
  rw [selBytes_eq, List.length_append, putWords_length, coordWords_length awf, hl, hd, (recDims_eq_one_iff hw.sel).mpr hc]
  simp only [Nat.lt_irrefl, if_false, List.length_nil, Nat.sub_self, Nat.mul_zero, Nat.mul_one]
  split
  · rename_i he
    rw [wreqFlags_enc] at he
    simp [hl] at he
  · decide

theorem traceless_same {cfg : Cfg} {F : List (List AW)} {a : AFile} {st s : FState} (h : SimW cfg F a st s) {r : Nat} {w : AW} {k k' : Rank}
    (hw : WriteOK cfg w) (ht : Traceless cfg a r w) (hk : st.ranks[r]? = some k)
    (hf : writeRankFails cfg w.d w.did w.bs k = .ok k') : k' = k := by
  obtain ⟨h1, h2⟩ := fails_hash hf
  have h3 : k'.hash = k.hash := by
    rcases h2 with h2 | ⟨hsh, hne, hl, hn, _⟩
    · exact h2
    · exfalso
      rcases ht with ht | ⟨p, q, w', hp, hq, hm, e1, e2⟩ | ⟨t1, t2, t3⟩
      · rw [hsh] at ht; simp at ht
      · obtain ⟨x, hx, hkey⟩ := h.keys hsh r k p q hk hp hq w' hm (by rw [e1, e2]; exact hl)
        refine hashFind_none hn x hx ?_ ?_
        · have := hkey.1
          unfold wreqHash at this ⊢
          rw [show (AW.plain cfg w' 0 0).selBuf = (mkWReq cfg w.d w.did w.bs k.mdsize []).selBuf from by
            show selBytes cfg w'.d w'.bs = selBytes cfg w.d w.bs
            rw [e1, e2]] at this
          exact this
        · have := hkey.2
          unfold wreqEq at this ⊢
          rw [show (AW.plain cfg w' 0 0).selBuf = (mkWReq cfg w.d w.did w.bs k.mdsize []).selBuf from by
            show selBytes cfg w'.d w'.bs = selBytes cfg w.d w.bs
            rw [e1, e2], show (AW.plain cfg w' 0 0).metaSize = (mkWReq cfg w.d w.did w.bs k.mdsize []).metaSize from by
            rw [plain_metaSize, e1, e2]
            rfl] at this
          exact this
      · exact short_sel hw t1 t2 t3 hl
  cases k; cases k'
  simp only [Rank.bare, Rank.mk.injEq] at h1 h3 ⊢
  exact ⟨h1.1, h1.2.1, h1.2.2.1, h3⟩

theorem flush_hash {st st' : FState} {doff : Nat} (h : st.flush doff = .ok st') :
    st'.ranks.map (fun k => k.hash) = st.ranks.map (fun k => k.hash) := by
  unfold FState.flush at h
  split at h
  · simp only at h
    split at h
    · simp only [Res.ok.injEq] at h
      subst h
      simp only [List.map_map]
      rfl
    · simp only [Res.ok.injEq] at h
      subst h
      simp only [List.map_zipWith]
      apply List.ext_getElem
      · simp [exscan_length]
      · intro i h1 h2
        simp [Rank.flushAt]
  · simp at h

theorem fileFlush_hash {st st' : FState} {doff : Nat} (h : st.fileFlush doff = .ok st') :
    st'.ranks.map (fun k => k.hash) = st.ranks.map (fun k => k.hash) := by
  unfold FState.fileFlush at h
  split at h
  · exact flush_hash h
  · simp only [Res.ok.injEq] at h
    rw [h]

theorem hash_at {ks ss : List Rank} (h : ks.map (fun k => k.hash) = ss.map (fun k => k.hash)) {r : Nat} {k : Rank} (hk : ks[r]? = some k) :
    ∃ s, ss[r]? = some s ∧ s.hash = k.hash := by
  have e := congrArg (fun l => l[r]?) h
  simp only [List.getElem?_map, hk, Option.map_some] at e
  cases hs : ss[r]? with
  | none => rw [hs] at e; simp at e
  | some s =>
    rw [hs] at e
    exact ⟨s, rfl, by simpa using e.symm⟩

/-- A flush of the data keeps the tables. -/
theorem sim_flush {cfg : Cfg} {F : List (List AW)} {a : AFile} {st s st' s' : FState} (h : SimW cfg F a st s) (hb : st'.bare = s'.bare)
    (e1 : st'.ranks.map (fun k => k.hash) = st.ranks.map (fun k => k.hash))
    (e2 : s'.ranks.map (fun k => k.hash) = s.ranks.map (fun k => k.hash)) :
    SimW cfg F a.flush st' s' := by
  refine ⟨hb, ?_, ?_, ?_⟩
  · have := congrArg List.length e1
    simp only [List.length_map] at this
    rw [this]; exact h.len
  · intro hsh r k k' f hk hk' hf
    obtain ⟨k0, h0, h1⟩ := hash_at e1 hk
    obtain ⟨k1, h2, h3⟩ := hash_at e2 hk'
    rw [← h1, ← h3]
    exact h.hash hsh r k0 k1 f h0 h2 hf
  · intro hsh r k p q hk hp hq w hw hlw
    obtain ⟨k0, h0, h1⟩ := hash_at e1 hk
    rw [← h1]
    simp only [AFile.flush, List.getElem?_map, List.getElem?_zipWith] at hp hq
    cases hq0 : a.queue[r]? with
    | none => rw [hq0] at hq; simp at hq
    | some q0 =>
      rw [hq0] at hq hp
      cases hp0 : a.epoch[r]? with
      | none => rw [hp0] at hp; simp at hp
      | some p0 =>
        rw [hp0] at hp
        simp only [Option.map_some, Option.some.injEq] at hp hq
        subst hp hq
        exact h.keys hsh r k0 p0 q0 h0 hp0 hq0 w (by simpa using hw) hlw

/-- States without requests. -/
theorem sim_clean {cfg : Cfg} {F : List (List AW)} {a : AFile} {st : FState} (hl : F.length = st.ranks.length)
    (he : a.epoch.flatten = []) (hq : cfg.share = true → ∀ (r : Nat) (q : List AW) (k : Rank), a.queue[r]? = some q → st.ranks[r]? = some k →
      ∀ w ∈ q, 8 < (selBytes cfg w.d w.bs).length → ∃ x ∈ k.hash, KeyOf cfg w x) : SimW cfg F a st st := by
  refine ⟨rfl, hl, ?_, ?_⟩
  · intro hsh r k k' f hk hk' hf
    rw [hk] at hk'
    simp only [Option.some.injEq] at hk'
    subst hk'
    exact SameFor.refl cfg f k.hash
  · intro hsh r k p q hk hp hq0 w hw hlw
    have : p = [] := by
      rw [List.flatten_eq_nil_iff] at he
      exact he p (List.mem_of_getElem? hp)
    rw [this, List.nil_append] at hw
    exact hq hsh r q k hq0 hk w hw hlw

theorem writeOk_parts {st st' : FState} {r did : Nat} {bs : List Blk} {data : List Byte} (h : st.write r did bs data = .ok st') :
    ∃ k d k', st.ranks[r]? = some k ∧ st.dsets[did]? = some (some d) ∧ writeRank st.cfg d did bs data k = .ok k' ∧
      st' = { st with ranks := st.ranks.set r k' } := by
  unfold FState.write at h
  split at h
  · rename_i k d e1 e2
    obtain ⟨k', h1, h2⟩ := Res.bind_ok h
    simp only [Res.pure_eq, Res.ok.injEq] at h2
    exact ⟨k, d, k', e1, e2, h1, h2.symm⟩
  · simp at h

theorem writeFails_parts {st st' : FState} {r did : Nat} {bs : List Blk} (h : st.writeFails r did bs = .ok st') :
    ∃ k d k', st.ranks[r]? = some k ∧ st.dsets[did]? = some (some d) ∧ writeRankFails st.cfg d did bs k = .ok k' ∧
      st' = { st with ranks := st.ranks.set r k' } := by
  unfold FState.writeFails at h
  split at h
  · rename_i k d e1 e2
    obtain ⟨k', h1, h2⟩ := Res.bind_ok h
    simp only [Res.pure_eq, Res.ok.injEq] at h2
    exact ⟨k, d, k', e1, e2, h1, h2.symm⟩
  · simp at h

theorem getElem?_set_cases {α : Type} {l : List α} {i j : Nat} {x y : α} (h : (l.set i x)[j]? = some y) :
    (j = i ∧ y = x) ∨ (j ≠ i ∧ l[j]? = some y) := by
  rw [List.getElem?_set] at h
  split at h
  · rename_i e
    split at h
    · simp only [Option.some.injEq] at h
      exact Or.inl ⟨e.symm, h.symm⟩
    · simp at h
  · rename_i e
    exact Or.inr ⟨fun h => e h.symm, h⟩

theorem modify_at {α : Type} {l : List α} {i : Nat} {f : α → α} : (l.modify i f)[i]? = l[i]?.map f := by
  rw [List.getElem?_modify]; simp

theorem modify_off {α : Type} {l : List α} {i j : Nat} {f : α → α} (h : j ≠ i) : (l.modify i f)[j]? = l[j]? := by
  rw [List.getElem?_modify]
  simp [show ¬ i = j from fun e => h e.symm]

theorem search_ranks {st st' : FState} {fuel r : Nat} {qs : List RReq} {raw : List Hit} (h : st.search fuel r qs = .ok (raw, st')) :
    st'.ranks = st.ranks := by
  unfold FState.search at h
  split at h
  · obtain ⟨hs, _, h⟩ := Res.bind_ok h
    simp only [Res.pure_eq, Res.ok.injEq, Prod.mk.injEq] at h
    rw [← h.2]
  · split at h
    · simp at h
    · obtain ⟨ix, _, h⟩ := Res.bind_ok h
      obtain ⟨hs, _, h⟩ := Res.bind_ok h
      simp only [Res.pure_eq, Res.ok.injEq, Prod.mk.injEq] at h
      rw [← h.2]

theorem set_same {α : Type} {l : List α} {i : Nat} {x : α} (h : l[i]? = some x) : l.set i x = l := by
  apply List.ext_getElem
  · simp
  · intro j h1 h2
    rw [List.getElem_set]
    split
    · rename_i e
      subst e
      exact (List.getElem?_eq_some_iff.mp h).2.symm
    · rfl

/-- Histories with failed writes are, up to the tables, histories without them. -/
theorem reachW_sim {cfg : Cfg} {st : FState} {F : List (List AW)} {a : AFile} (h : ReachW cfg st F a) :
    ∃ s, Reach cfg s a ∧ SimW cfg F a st s := by
  induction h with
  | create compact mbuf np disk h h2 =>
    refine ⟨_, Reach.create compact mbuf np disk h h2, sim_clean (by simp [FState.create]) (by simp [AFile.create]) ?_⟩
    intro _ r q k hq _ w hw
    simp only [AFile.create] at hq
    rw [List.getElem?_replicate] at hq
    split at hq
    · simp only [Option.some.injEq] at hq
      rw [← hq] at hw; simp at hw
    · simp at hq
  | addDset d _ ih =>
    obtain ⟨s, r, i⟩ := ih
    refine ⟨s.addDset d, Reach.addDset d r, ?_, i.len, i.hash, i.keys⟩
    have := i.bare
    simp only [FState.bare, FState.addDset, FState.mk.injEq] at this ⊢
    rw [this.2.2.2.1]
    exact ⟨this.1, this.2.1, this.2.2.1, rfl, this.2.2.2.2⟩
  | setDims did dims d _ h1 h2 ih =>
    obtain ⟨s, r, i⟩ := ih
    refine ⟨s.setDims did dims, Reach.setDims did dims d r h1 h2, ?_, i.len, i.hash, i.keys⟩
    have := i.bare
    simp only [FState.bare, FState.setDims, FState.mk.injEq] at this ⊢
    rw [this.2.2.2.1]
    exact ⟨this.1, this.2.1, this.2.2.1, rfl, this.2.2.2.2⟩
  | @write st F a st' r w _ hw hu he ih =>
    obtain ⟨s, hr, i⟩ := ih
    obtain ⟨g, inv⟩ := reach_inv hr
    obtain ⟨k, d, k', e1, e2, e3, rfl⟩ := writeOk_parts he
    have hcfg : st.cfg = cfg := (congrArg FState.cfg i.bare).trans inv.cfgEq
    have hds : st.dsets = a.dsets := (congrArg FState.dsets i.bare).trans inv.dsets
    rw [hds, hw.dset] at e2
    simp only [Option.some.injEq] at e2
    subst e2
    rw [hcfg] at e3
    obtain ⟨s0, f1, f2⟩ := i.rank e1
    have hlt : r < F.length := by
      rw [i.len]
      exact (List.getElem?_eq_some_iff.mp e1).1
    obtain ⟨f, hf⟩ : ∃ f, F[r]? = some f := ⟨F[r], List.getElem?_eq_getElem hlt⟩
    obtain ⟨s', g1, g2, g3, g4, g5⟩ := writeRank_bare hw.ok f2 (fun hs => i.hash hs r k s0 f e1 f1 hf) (fun hs => hu hs f hf) e3
    have hws : s.write r w.did w.bs w.data = .ok { s with ranks := s.ranks.set r s' } := by
      unfold FState.write
      rw [f1, inv.dsets, hw.dset, inv.cfgEq]
      simp only [g1, Res.ok_bind, Res.pure_eq]
    refine ⟨_, Reach.write r w hr hw hws, ?_, ?_, ?_, ?_⟩
    · have := i.bare
      simp only [FState.bare, FState.mk.injEq] at this ⊢
      exact ⟨this.1, this.2.1, this.2.2.1, this.2.2.2.1, set_bare i.ranks g2, this.2.2.2.2.2⟩
    · simpa using i.len
    · intro hsh r1 k1 k1' f1' hk1 hk1' hf1
      rcases getElem?_set_cases hk1 with ⟨rfl, rfl⟩ | ⟨hne, hk1⟩
      · rcases getElem?_set_cases hk1' with ⟨_, rfl⟩ | ⟨hne, _⟩
        · rw [hf] at hf1
          simp only [Option.some.injEq] at hf1
          subst hf1
          exact g3 hsh
        · exact (hne rfl).elim
      · rcases getElem?_set_cases hk1' with ⟨h, _⟩ | ⟨_, hk1'⟩
        · exact (hne h).elim
        · exact i.hash hsh r1 k1 k1' f1' hk1 hk1' hf1
    · intro hsh r1 k1 p q hk1 hp hq w1 hw1 hl1
      simp only [AFile.write] at hp hq
      rcases getElem?_set_cases hk1 with ⟨rfl, rfl⟩ | ⟨hne, hk1⟩
      · rw [modify_at] at hq
        cases hq0 : a.queue[r1]? with
        | none => rw [hq0] at hq; simp at hq
        | some q0 =>
          rw [hq0] at hq
          simp only [Option.map_some, Option.some.injEq] at hq
          subst hq
          rw [← List.append_assoc, List.mem_append] at hw1
          rcases hw1 with hw1 | hw1
          · obtain ⟨x, hx, hx2⟩ := i.keys hsh r1 k p q0 e1 hp hq0 w1 hw1 hl1
            exact ⟨x, g4 x hx, hx2⟩
          · simp only [List.mem_singleton] at hw1
            subst hw1
            exact g5 hsh hl1
      · rw [modify_off hne] at hq
        exact i.keys hsh r1 k1 p q hk1 hp hq w1 hw1 hl1
  | @writeFails st F a st' r w _ hw hd he ih =>
    obtain ⟨s, hr, i⟩ := ih
    obtain ⟨g, inv⟩ := reach_inv hr
    obtain ⟨k, d, k', e1, e2, e3, rfl⟩ := writeFails_parts he
    have hcfg : st.cfg = cfg := (congrArg FState.cfg i.bare).trans inv.cfgEq
    have hds : st.dsets = a.dsets := (congrArg FState.dsets i.bare).trans inv.dsets
    rw [hds, hd] at e2
    simp only [Option.some.injEq] at e2
    subst e2
    rw [hcfg] at e3
    obtain ⟨g1, g2⟩ := fails_hash e3
    have hlt : r < F.length := by
      rw [i.len]
      exact (List.getElem?_eq_some_iff.mp e1).1
    obtain ⟨f, hf⟩ : ∃ f, F[r]? = some f := ⟨F[r], List.getElem?_eq_getElem hlt⟩
    refine ⟨s, hr, ?_, ?_, ?_, ?_⟩
    · have := i.bare
      simp only [FState.bare, FState.mk.injEq] at this ⊢
      refine ⟨this.1, this.2.1, this.2.2.1, this.2.2.2.1, ?_, this.2.2.2.2.2⟩
      rw [List.map_set, g1, ← i.ranks]
      apply List.ext_getElem
      · simp
      · intro j h1 h2
        rw [List.getElem_set]
        split
        · rename_i e
          subst e
          rw [List.getElem_map]
          congr 1
          exact (List.getElem?_eq_some_iff.mp e1).2.symm
        · rfl
    · simpa using i.len
    · intro hsh r1 k1 k1' f1' hk1 hk1' hf1
      rcases getElem?_set_cases hk1 with ⟨rfl, rfl⟩ | ⟨hne, hk1⟩
      · rw [modify_at, hf] at hf1
        simp only [Option.map_some, Option.some.injEq] at hf1
        subst hf1
        have i0 := i.hash hsh r1 k k1' f e1 hk1' hf
        rcases g2 with g2 | ⟨_, _, _, _, g2⟩
        · rw [g2]; exact i0.more w
        · rw [g2]; exact i0.failed hsh hw _
      · rw [modify_off hne] at hf1
        exact i.hash hsh r1 k1 k1' f1' hk1 hk1' hf1
    · intro hsh r1 k1 p q hk1 hp hq w1 hw1 hl1
      rcases getElem?_set_cases hk1 with ⟨rfl, rfl⟩ | ⟨hne, hk1⟩
      · obtain ⟨x, hx, hx2⟩ := i.keys hsh r1 k p q e1 hp hq w1 hw1 hl1
        refine ⟨x, ?_, hx2⟩
        rcases g2 with g2 | ⟨_, _, _, _, g2⟩ <;> rw [g2]
        · exact hx
        · simp [hx]
      · exact i.keys hsh r1 k1 p q hk1 hp hq w1 hw1 hl1
  | @traceless st F a st' r w _ hw hd ht he ih =>
    obtain ⟨s, hr, i⟩ := ih
    obtain ⟨g, inv⟩ := reach_inv hr
    obtain ⟨k, d, k', e1, e2, e3, rfl⟩ := writeFails_parts he
    have hcfg : st.cfg = cfg := (congrArg FState.cfg i.bare).trans inv.cfgEq
    have hds : st.dsets = a.dsets := (congrArg FState.dsets i.bare).trans inv.dsets
    rw [hds, hd] at e2
    simp only [Option.some.injEq] at e2
    subst e2
    rw [hcfg] at e3
    have := traceless_same i hw ht e1 e3
    subst this
    refine ⟨s, hr, ?_⟩
    rw [set_same e1]
    exact i
  | @flush st F a st' doff _ hf he hsm ih =>
    obtain ⟨s, hr, i⟩ := ih
    obtain ⟨g, inv⟩ := reach_inv hr
    obtain ⟨s', e1, e2⟩ := bare_op (op := fun st => st.fileFlush doff) (fun st => fileFlush_bare st doff) i.bare he
    exact ⟨s', Reach.flush doff hr (i.fresh hf) e1 (small_bare e2 hsm),
      sim_flush i e2 (fileFlush_hash he) (fileFlush_hash e1)⟩
  | @prepare st F a st' coll doff mdoff _ hf hf' hm hc he hsm ih =>
    obtain ⟨s, hr, i⟩ := ih
    obtain ⟨g, inv⟩ := reach_inv hr
    have hnp : st.ranks.length = a.queue.length := i.ranksLen.trans inv.np
    -- the data
    have key : ∃ st1 s1, SimW cfg F (if coll || decide (a.queue.length = 1) then a.flush else a) st1 s1 ∧
        st' = (if st1.metadirty then st1.metaflush mdoff else st1) ∧
        s.prepare coll doff mdoff = .ok (if s1.metadirty then s1.metaflush mdoff else s1) ∧
        (Small s1 → ∃ g1, Inv cfg g1 s1 (if coll || decide (a.queue.length = 1) then a.flush else a)) := by
      unfold FState.prepare at he ⊢
      rw [hnp] at he
      rw [inv.np]
      by_cases hb : (coll || decide (a.queue.length = 1)) = true
      · rw [hb, Bool.true_and] at he ⊢
        rw [if_pos rfl]
        obtain ⟨st1, h1, h2⟩ := Res.bind_ok he
        simp only [Res.pure_eq, Res.ok.injEq] at h2
        have h1' : st.fileFlush doff = .ok st1 := h1
        obtain ⟨s1, e1, e2⟩ := bare_op (op := fun st => st.fileFlush doff) (fun st => fileFlush_bare st doff) i.bare h1'
        refine ⟨st1, s1, sim_flush i e2 (fileFlush_hash h1') (fileFlush_hash e1), h2.symm, ?_, fun hs1 => ?_⟩
        · unfold FState.fileFlush at e1
          rw [e1]; rfl
        · exact reach_inv (Reach.flush doff hr (i.fresh hf) e1 hs1)
      · rw [Bool.not_eq_true] at hb
        rw [hb, Bool.false_and] at he ⊢
        simp only [Bool.false_eq_true, if_false, Res.ok_bind, Res.pure_eq, Res.ok.injEq] at he ⊢
        exact ⟨st, s, i, he.symm, rfl, fun _ => ⟨g, inv⟩⟩
    obtain ⟨st1, s1, i1, k1, k2, k3⟩ := key
    have hmd : st1.metadirty = s1.metadirty := (congrArg FState.metadirty i1.bare : st1.bare.metadirty = s1.bare.metadirty)
    have hpr : a.prepare coll = (if coll || decide (a.queue.length = 1) then a.flush else a).metaflush := rfl
    generalize hA : (if coll || decide (a.queue.length = 1) then a.flush else a) = A at *
    have hsm1 : Small s1 := by
      refine small_bare i1.bare ?_
      rw [k1] at hsm
      split at hsm
      · exact Small.of_metaflush hsm
      · exact hsm
    obtain ⟨g1, inv1⟩ := k3 hsm1
    have hfin : (if s1.metadirty then s1.metaflush mdoff else s1).bare = st'.bare := by
      rw [k1, hmd]
      split
      · rw [← metaflush_bare s1, ← metaflush_bare st1, i1.bare]
      · exact i1.bare.symm
    refine ⟨_, Reach.prepare coll doff mdoff hr (i.fresh hf) (i.fresh hf') hm hc k2 (small_bare hfin.symm hsm), ?_⟩
    rw [hpr]
    by_cases hdirty : A.epoch.flatten = []
    · rw [if_pos hdirty]
      have hnd : s1.metadirty = false := by
        rw [Bool.eq_false_iff]
        intro h
        exact (inv1.dirty.mp h) hdirty
      rw [k1, hmd, hnd]
      simp only [Bool.false_eq_true, if_false]
      refine ⟨i1.bare, i1.len, i1.hash, ?_⟩
      intro hsh r k p q hk hp hq w hw hl
      simp only [AFile.metaflush, List.getElem?_map] at hp hq
      cases hp0 : A.epoch[r]? with
      | none => rw [hp0] at hp; simp at hp
      | some p0 =>
        rw [hp0] at hp
        simp only [Option.map_some, Option.some.injEq] at hp
        subst hp
        exact i1.keys hsh r k p0 q hk hp0 hq w (by simp at hw; simp [hw]) hl
    · rw [if_neg hdirty]
      have hd : s1.metadirty = true := inv1.dirty.mpr hdirty
      rw [k1, hmd, hd]
      simp only [if_true]
      have e : st1.metaflush mdoff = s1.metaflush mdoff := by
        rw [← metaflush_bare s1, ← metaflush_bare st1, i1.bare]
      rw [e]
      refine sim_clean ?_ (by simp [AFile.metaflush]) ?_
      · rw [List.length_map, i1.len, i1.ranksLen]
        unfold FState.metaflush
        simp
      · intro hsh r q k hq hk w hw hl
        exfalso
        -- nothing is queued
        have hqe : A.queue.flatten = [] := by
          rw [← hA]
          rw [← hA] at hdirty
          split
          · simp [AFile.flush]
          · rename_i hb
            rw [if_neg hb] at hdirty
            simp only [Bool.or_eq_true, decide_eq_true_eq, not_or] at hb
            exact ((hc.resolve_left hb.1).resolve_left hb.2).resolve_left hdirty
        rw [List.flatten_eq_nil_iff] at hqe
        have := hqe q (List.mem_of_getElem? hq)
        rw [this] at hw
        simp at hw
  | @search st F a st' raw fuel r qs _ he hs ih =>
    obtain ⟨s, hr, i⟩ := ih
    have e1 := search_bare st fuel r qs
    rw [hs, i.bare, search_bare s] at e1
    obtain ⟨⟨raw', s'⟩, e2, e3⟩ := resMap_ok e1
    simp only [Prod.mk.injEq] at e3
    refine ⟨s', Reach.search fuel r qs hr he e2, e3.2.symm, ?_, ?_, ?_⟩
    · rw [search_ranks hs]; exact i.len
    · rw [search_ranks hs, search_ranks e2]; exact i.hash
    · rw [search_ranks hs]; exact i.keys
  | @reopen st F a st' doff mdoff np compact mbuf gone _ hf hf' hm h0 h1 hcl hsm ih =>
    obtain ⟨s, hr, i⟩ := ih
    have key : s.close doff mdoff = .ok st' := by
      unfold FState.close at hcl ⊢
      obtain ⟨st1, c1, c2⟩ := Res.bind_ok hcl
      obtain ⟨s1, e1, e2⟩ := bare_op (op := fun st => st.flush doff) (fun st => flush_bare st doff) i.bare c1
      rw [e1]
      simp only [Res.ok_bind, Res.pure_eq] at c2 ⊢
      rw [← metaflush_bare s1, ← e2, metaflush_bare]
      exact c2
    refine ⟨_, Reach.reopen doff mdoff np compact mbuf gone hr (i.fresh hf) (i.fresh hf') hm h0 h1 key hsm, ?_⟩
    refine sim_clean (by simp [FState.reopen]) (by simp [AFile.reopen]) ?_
    intro _ r q k hq _ w hw
    simp only [AFile.reopen] at hq
    rw [List.getElem?_replicate] at hq
    split at hq
    · simp only [Option.some.injEq] at hq
      rw [← hq] at hw; simp at hw
    · simp at hq

end Verif
