import Verif.Lemmas.FileInv

namespace Verif

open Spec (AW AFile WriteOK MayWrite Fresh Small Layout Stored Known)

/-! ### Metadata flush -/

theorem mapIdx_const {α β : Type} (f : α → β) (l : List α) : l.mapIdx (fun _ x => f x) = l.map f := by
  apply List.ext_getElem (by simp)
  intro i h1 h2
  simp

theorem mdSizes_cons (k : Rank) (ks : List Rank) :
    mdSizes (k :: ks) = (8 * (ks.length + 1 + 1) + (k.wreqs.map WReq.metaSize).sum) ::
      ks.map (fun k => (k.wreqs.map WReq.metaSize).sum) := by
  unfold mdSizes
  rw [List.mapIdx_cons]
  simp only [List.length_cons, if_true, Nat.add_eq_zero_iff, Nat.one_ne_zero, and_false, if_false,
    Nat.zero_add]
  rw [mapIdx_const]

theorem mdBufs_cons (k : Rank) (ks : List Rank) :
    mdBufs (k :: ks) = (putWords ((ks.length + 1) :: inscan 0 (mdSizes (k :: ks))) ++ k.metaBytes) ::
      ks.map Rank.metaBytes := by
  unfold mdBufs
  rw [List.mapIdx_cons]
  simp only [List.length_cons, if_true, Nat.add_eq_zero_iff, Nat.one_ne_zero, and_false, if_false,
    List.nil_append]
  rw [mapIdx_const]

theorem RSOK.metaSizes {cfg : Cfg} {x : RS} (h : RSOK cfg x) (hq : x.qu = []) :
    (x.k.wreqs.map WReq.metaSize).sum = msize x.fl := by
  rw [h.inv.reqs, hq, List.append_nil, List.map_map]; rfl

theorem RSOK.metaBytes {cfg : Cfg} {x : RS} (h : RSOK cfg x) (hq : x.qu = []) :
    x.k.metaBytes = mbytes x.fl := by
  unfold Rank.metaBytes
  rw [h.inv.reqs, hq, List.append_nil, List.flatMap_map]; rfl

/-- What the processes write. -/
theorem md_layout {cfg : Cfg} {rs : List RS} (h0 : 0 < rs.length) (hok : ∀ x ∈ rs, RSOK cfg x)
    (hq : ∀ x ∈ rs, x.qu = []) :
    (mdBufs (rs.map RS.k)).flatten = mdContent (rs.map RS.fl) ∧
    mdSizes (rs.map RS.k) = (mdBufs (rs.map RS.k)).map List.length ∧
    (mdSizes (rs.map RS.k)).sum = 8 * (rs.length + 1) + (rs.map (fun x => msize x.fl)).sum := by
  cases rs with
  | nil => simp at h0
  | cons x rs =>
    have hx := hok x (by simp)
    have hxq := hq x (by simp)
    have e1 : (rs.map RS.k).map (fun k => (k.wreqs.map WReq.metaSize).sum) =
        (rs.map RS.fl).map msize := by
      rw [List.map_map, List.map_map]
      exact List.map_congr_left (fun y hy => (hok y (by simp [hy])).metaSizes (hq y (by simp [hy])))
    have e2 : (rs.map RS.k).map Rank.metaBytes = (rs.map RS.fl).map mbytes := by
      rw [List.map_map, List.map_map]
      exact List.map_congr_left (fun y hy => (hok y (by simp [hy])).metaBytes (hq y (by simp [hy])))
    have e3 : mdSizes ((x :: rs).map RS.k) = (8 * (rs.length + 1 + 1) + msize x.fl) ::
        (rs.map RS.fl).map msize := by
      rw [List.map_cons, mdSizes_cons, e1, hx.metaSizes hxq, List.length_map]
    have e4 : mdBufs ((x :: rs).map RS.k) =
        (putWords ((rs.length + 1) :: inscan 0 (mdSizes ((x :: rs).map RS.k))) ++ mbytes x.fl) ::
          (rs.map RS.fl).map mbytes := by
      rw [List.map_cons, mdBufs_cons, e2, hx.metaBytes hxq, List.length_map]
    refine ⟨?_, ?_, ?_⟩
    · rw [e4, e3]
      unfold mdContent
      simp only [List.flatten_cons, List.map_cons, List.length_cons, List.length_map, inscan,
        Nat.zero_add, List.append_assoc]
    · rw [e4, e3]
      simp only [List.map_cons, List.length_append, putWords_length, List.length_cons, inscan_length,
        mbytes_length, List.map_map, List.length_map, List.cons.injEq]
      refine ⟨by simp only, ?_⟩
      apply List.map_congr_left
      intro y _
      simp
    · rw [e3]
      simp only [List.sum_cons, List.map_cons, List.length_cons, List.map_map]
      have : (msize ∘ RS.fl) = fun x => msize x.fl := rfl
      rw [this]
      omega

theorem msize_eq_zero {xs : List (AW × WReq)} (h : msize xs = 0) : xs = [] := by
  cases xs with
  | nil => rfl
  | cons x xs =>
    have := x.2.metaSize_pos
    rw [msize_cons] at h
    omega

theorem mdContent_length (secs : List (List (AW × WReq))) :
    (mdContent secs).length = 8 * (secs.length + 1) + (secs.map msize).sum := by
  unfold mdContent
  simp only [List.length_append, putWords_length, List.length_cons, inscan_length, List.length_map,
    List.length_flatten, List.map_map]
  congr 2
  apply List.map_congr_left
  intro y _
  simp

theorem inv_metaflush {cfg : Cfg} {g : Ghost} {st : FState} {a : AFile} (h : Inv cfg g st a) {mdoff : Nat}
    (hq : ∀ x ∈ g.rs, x.qu = []) (hf : Fresh st mdoff) (hsm : Small (st.metaflush mdoff)) :
    ∃ g', Inv cfg g' (st.metaflush mdoff) a.metaflush ∧ (∀ x ∈ g'.rs, x.qu = []) := by
  obtain ⟨l1, l2, l3⟩ := md_layout h.np0 h.rok hq
  have hlen : st.ranks.length = g.rs.length := by rw [h.ranks, List.length_map]
  let rs' : List RS := g.rs.map (fun _ => ⟨Rank.init, [], []⟩)
  have hrs' : ∀ y ∈ rs', y = ⟨Rank.init, [], []⟩ := by
    intro y hy
    obtain ⟨_, _, rfl⟩ := List.mem_map.mp hy
    rfl
  have hfl0 : rs'.flatMap RS.fl = [] := by
    rw [List.flatMap_eq_nil_iff]
    intro y hy
    rw [hrs' y hy]
  have hqueue : a.metaflush.queue = rs'.map (fun x => x.qu.map (·.1)) := by
    simp only [AFile.metaflush]
    rw [h.queue, List.map_map]
    apply List.map_congr_left
    intro x hx
    rw [hq x hx]; rfl
  have hepoch : a.metaflush.epoch = rs'.map (fun x => x.fl.map (·.1)) := by
    simp only [AFile.metaflush]
    rw [h.epoch, List.map_map, List.map_map]
    rfl
  have hsecs : ∀ xs, xs ∈ g.rs.map RS.fl → xs.map (·.1) ∈ a.metaflush.secs := by
    intro xs hxs
    obtain ⟨x, hx, rfl⟩ := List.mem_map.mp hxs
    simp only [AFile.metaflush, List.mem_append]
    right
    rw [h.epoch]
    exact List.mem_map.mpr ⟨x, hx, rfl⟩
  have hrok : ∀ x ∈ rs', RSOK cfg x := fun x hx => by rw [hrs' x hx]; exact RSOK.init cfg
  have hwokr : ∀ y ∈ rs', ∀ x ∈ y.fl ++ y.qu, WriteOK cfg x.1 ∧ Known st.dsets x.1 := by
    intro y hy x hx
    rw [hrs' y hy] at hx
    simp at hx
  have hranks : st.ranks.map (fun _ => Rank.init) = rs'.map RS.k := by
    rw [h.ranks, List.map_map, List.map_map]; rfl
  have hcache : ∀ (i : Nat) (ix : Idx) (P : Prop),
      (st.idx.map (fun _ => (none : Option Idx)))[i]? = some (some ix) → P := by
    intro i ix P hi
    rw [List.getElem?_map] at hi
    cases hh : st.idx[i]? with
    | none => rw [hh] at hi; simp at hi
    | some o => rw [hh] at hi; simp at hi
  have hidxl : (st.idx.map (fun _ => (none : Option Idx))).length =
      (st.ranks.map (fun _ => Rank.init)).length := by
    rw [List.length_map, List.length_map]; exact h.idxl
  have hepo : a.metaflush.epoch.flatten = [] := by
    rw [hepoch, List.flatten_eq_nil_iff]
    intro l hl
    obtain ⟨y, hy, rfl⟩ := List.mem_map.mp hl
    rw [hrs' y hy]; rfl
  unfold FState.metaflush at hsm ⊢
  simp only at hsm ⊢
  rw [h.ranks] at hsm ⊢
  rw [l3, List.length_map] at hsm ⊢
  by_cases hc : 8 * (g.rs.length + 1) < 8 * (g.rs.length + 1) + (g.rs.map (fun x => msize x.fl)).sum
  · rw [if_pos hc] at hsm ⊢
    have hdisk : ((mdBufs (g.rs.map RS.k)).zip (exscan 0 (mdSizes (g.rs.map RS.k)))).foldl
        (fun d p => writeAt d (p.2 + mdoff) p.1) st.disk = writeAt st.disk mdoff (mdContent (g.rs.map RS.fl)) := by
      rw [l2]
      have := foldl_writeAt (fun b : List Byte => b) mdoff (mdBufs (g.rs.map RS.k)) 0 st.disk
      rw [Nat.zero_add] at this
      refine Eq.trans this ?_
      rw [← l1, List.flatMap_def, List.map_id']
    rw [hdisk] at hsm ⊢
    have hf1 : ∀ e ∈ st.lds, e.addr + e.size ≤ mdoff := fun e he => hf e (by simp [he])
    have hf2 : ∀ e ∈ st.mds, e.addr + e.size ≤ mdoff := fun e he => hf e (by simp [he])
    refine ⟨⟨g.ls, g.mdx ++ [g.rs.map RS.fl], rs'⟩, ?_, fun x hx => by rw [hrs' x hx]⟩
    constructor
    case cfgEq => exact h.cfgEq
    case dsets => exact h.dsets
    case ranks => simp only; rw [← hranks, h.ranks]
    case queue => exact hqueue
    case epoch => exact hepoch
    case idxl => rw [← h.ranks]; exact hidxl
    case np0 => simp only [rs', List.length_map]; exact h.np0
    case np1 => simp only [rs', List.length_map]; exact h.np1
    case rok => exact hrok
    case wokm =>
      intro x hx
      simp only [List.flatten_append, List.mem_append, List.flatten_singleton] at hx
      rcases hx with hx | hx
      · exact h.wokm x hx
      · obtain ⟨l, hl, hxl⟩ := List.mem_flatten.mp hx
        obtain ⟨y, hy, rfl⟩ := List.mem_map.mp hl
        exact h.wokr y hy x (by simp [hxl])
    case wokr => exact hwokr
    case lay => exact h.lay
    case sto => exact stored_writeAt h.sto (h.below hf1)
    case done => exact h.done
    case perm =>
      simp only [List.flatten_append, List.flatten_singleton, hfl0, List.append_nil]
      rw [← List.flatMap_def]
      exact h.perm
    case inl => exact h.inl
    case small => exact hsm
    case md =>
      refine List.rel_append (md_writeAt h.md hf2) (List.Forall₂.cons ⟨?_, ?_, ?_⟩ List.Forall₂.nil)
      · simp only
        have : 8 * (g.rs.length + 1) + (g.rs.map (fun x => msize x.fl)).sum =
            (mdContent (g.rs.map RS.fl)).length := by
          rw [mdContent_length, List.length_map, List.map_map]; rfl
        rw [this, fileBytes_writeAt]
      · rw [List.length_map]; exact h.np0
      · rw [List.length_map]; exact h.np1
    case sec =>
      intro xs hxs
      simp only [List.flatten_append, List.mem_append, List.flatten_singleton] at hxs
      rcases hxs with hxs | hxs
      · obtain ⟨h1, h2, h3⟩ := h.sec xs hxs
        refine ⟨h1, h2, ?_⟩
        simp only [AFile.metaflush, List.mem_append]
        exact Or.inl h3
      · refine ⟨?_, ?_, hsecs xs hxs⟩
        · obtain ⟨x, hx, rfl⟩ := List.mem_map.mp hxs
          have := (h.rok x hx).inv.sec
          rw [hq x hx, List.append_nil] at this
          exact this
        · obtain ⟨x, hx, rfl⟩ := List.mem_map.mp hxs
          have := (h.rok x hx).len
          rw [hq x hx, List.append_nil] at this
          exact this
    case ord =>
      have e : (g.rs.map RS.fl).map (fun xs => xs.map (·.1)) = a.epoch := by
        rw [h.epoch, List.map_map]; rfl
      simp only [List.flatten_append, List.flatten_singleton, List.map_append, AFile.metaflush, e]
      exact ⟨h.ord.1.append (List.Sublist.refl _), by rw [h.ord.2]⟩
    case cache => exact fun i ix hi => hcache i ix _ hi
    case dirty => simp [hepo]
  · rw [if_neg hc] at hsm ⊢
    have hfl : ∀ x ∈ g.rs, x.fl = [] := by
      intro x hx
      have h0 : (g.rs.map (fun x => msize x.fl)).sum = 0 := by omega
      exact msize_eq_zero (sum_eq_zero.mp h0 _ (List.mem_map.mpr ⟨x, hx, rfl⟩))
    have hfl1 : g.rs.flatMap RS.fl = [] := by
      rw [List.flatMap_eq_nil_iff]; exact hfl
    refine ⟨⟨g.ls, g.mdx, rs'⟩, ?_, fun x hx => by rw [hrs' x hx]⟩
    constructor
    case cfgEq => exact h.cfgEq
    case dsets => exact h.dsets
    case ranks => simp only; rw [← hranks, h.ranks]
    case queue => exact hqueue
    case epoch => exact hepoch
    case idxl => rw [← h.ranks]; exact hidxl
    case np0 => simp only [rs', List.length_map]; exact h.np0
    case np1 => simp only [rs', List.length_map]; exact h.np1
    case rok => exact hrok
    case wokm => exact h.wokm
    case wokr => exact hwokr
    case lay => exact h.lay
    case sto => exact h.sto
    case done => exact h.done
    case perm =>
      simp only [hfl0]
      have := h.perm
      rw [hfl1] at this
      exact this
    case inl => exact h.inl
    case small => exact hsm
    case md => exact h.md
    case sec =>
      intro xs hxs
      obtain ⟨h1, h2, h3⟩ := h.sec xs hxs
      refine ⟨h1, h2, ?_⟩
      simp only [AFile.metaflush, List.mem_append]
      exact Or.inl h3
    case ord =>
      refine ⟨h.ord.1.trans (List.sublist_append_left _ _), ?_⟩
      have : a.epoch.flatten = [] := by
        rw [h.epoch, List.flatten_eq_nil_iff]
        intro l hl
        obtain ⟨x, hx, rfl⟩ := List.mem_map.mp hl
        rw [hfl x hx]; rfl
      simp only [AFile.metaflush, List.flatten_append, this, List.append_nil]
      exact h.ord.2
    case cache => exact fun i ix hi => hcache i ix _ hi
    case dirty => simp [hepo]

/-- Without flushed writes waiting for their metadata a metadata flush changes nothing. -/
theorem inv_clean {cfg : Cfg} {g : Ghost} {st : FState} {a : AFile} (h : Inv cfg g st a)
    (he : a.epoch.flatten = []) : Inv cfg g st a.metaflush := by
  have e : a.epoch.map (fun _ => ([] : List AW)) = a.epoch := by
    conv => rhs; rw [← List.map_id a.epoch]
    exact List.map_congr_left (fun l hl => (List.flatten_eq_nil_iff.mp he l hl).symm)
  exact { h with
    epoch := by simp only [AFile.metaflush]; rw [e]; exact h.epoch
    sec := by
      intro xs hxs
      obtain ⟨h1, h2, h3⟩ := h.sec xs hxs
      refine ⟨h1, h2, ?_⟩
      simp only [AFile.metaflush, List.mem_append]
      exact Or.inl h3
    ord := by
      refine ⟨h.ord.1.trans (List.sublist_append_left _ _), ?_⟩
      simp only [AFile.metaflush, List.flatten_append, he, List.append_nil]
      exact h.ord.2
    dirty := by simp only [AFile.metaflush]; rw [e]; exact h.dirty }

theorem metaflush_mds (st : FState) (mdoff : Nat) : (∀ e ∈ st.mds, e ∈ (st.metaflush mdoff).mds) ∧
    (st.metaflush mdoff).lds = st.lds := by
  unfold FState.metaflush
  simp only
  split
  · exact ⟨fun e he => by simp [he], rfl⟩
  · exact ⟨fun e he => he, rfl⟩

theorem Small.of_metaflush {st : FState} {mdoff : Nat} (h : Small (st.metaflush mdoff)) : Small st := by
  intro e he
  obtain ⟨h1, h2⟩ := metaflush_mds st mdoff
  apply h e
  rw [h2]
  rcases List.mem_append.mp he with he | he
  · simp [he]
  · simp [h1 e he]

theorem Inv.queue_nil {cfg : Cfg} {g : Ghost} {st : FState} {a : AFile} (h : Inv cfg g st a)
    (hq : a.queue.flatten = []) : ∀ x ∈ g.rs, x.qu = [] := by
  intro x hx
  rw [h.queue, List.flatten_eq_nil_iff] at hq
  exact List.map_eq_nil_iff.mp (hq _ (List.mem_map.mpr ⟨x, hx, rfl⟩))

theorem Inv.queue_of {cfg : Cfg} {g : Ghost} {st : FState} {a : AFile} (h : Inv cfg g st a)
    (hq : ∀ x ∈ g.rs, x.qu = []) : a.queue.flatten = [] := by
  rw [h.queue, List.flatten_eq_nil_iff]
  intro l hl
  obtain ⟨x, hx, rfl⟩ := List.mem_map.mp hl
  rw [hq x hx]; rfl

theorem Inv.fl_nil {cfg : Cfg} {g : Ghost} {st : FState} {a : AFile} (h : Inv cfg g st a)
    (he : a.epoch.flatten = []) : g.rs.flatMap RS.fl = [] := by
  rw [h.epoch, List.flatten_eq_nil_iff] at he
  rw [List.flatMap_eq_nil_iff]
  intro x hx
  exact List.map_eq_nil_iff.mp (he _ (List.mem_map.mpr ⟨x, hx, rfl⟩))

/-- Flush by `H5Fflush`, or before a read. -/
theorem inv_fileFlush {cfg : Cfg} {g : Ghost} {st : FState} {a : AFile} (h : Inv cfg g st a) {doff : Nat}
    (hf : Fresh st doff) :
    ∃ st', st.fileFlush doff = .ok st' ∧ st'.mds = st.mds ∧ st'.cfg = st.cfg ∧ st'.compact = st.compact ∧
      st'.mbuf = st.mbuf ∧ st'.saved = st.saved ∧
      (∀ e ∈ st'.lds, e ∈ st.lds ∨ e = ⟨doff, Spec.queued a⟩) ∧
      (Small st' → ∃ g', Inv cfg g' st' a.flush ∧ ∀ x ∈ g'.rs, x.qu = []) := by
  unfold FState.fileFlush
  by_cases hp : st.anyPending = true
  · rw [if_pos hp]
    exact inv_flush h hf
  · rw [if_neg hp]
    have hq : a.queue.flatten = [] := by
      by_contra hc
      exact hp (h.anyPending.mpr hc)
    refine ⟨st, rfl, rfl, rfl, rfl, rfl, rfl, fun e he => Or.inl he, fun _ => ⟨g, ?_, h.queue_nil hq⟩⟩
    rw [aflush_eq hq h.epoch_len]
    exact h

theorem fresh_after {st st' : FState} {a : AFile} {doff mdoff : Nat} (hf : Fresh st mdoff)
    (h1 : st'.mds = st.mds) (h2 : ∀ e ∈ st'.lds, e ∈ st.lds ∨ e = ⟨doff, Spec.queued a⟩)
    (h3 : doff + Spec.queued a ≤ mdoff) : Fresh st' mdoff := by
  intro e he
  rcases List.mem_append.mp he with he | he
  · rcases h2 e he with h | rfl
    · exact hf e (by simp [h])
    · exact h3
  · rw [h1] at he
    exact hf e (by simp [he])

theorem inv_dirty {cfg : Cfg} {g : Ghost} {st : FState} {a : AFile} (h : Inv cfg g st a) {mdoff : Nat}
    (hq : (∀ x ∈ g.rs, x.qu = []) ∨ a.epoch.flatten = []) (hf : Fresh st mdoff)
    (hsm : Small (if st.metadirty then st.metaflush mdoff else st)) :
    ∃ g', Inv cfg g' (if st.metadirty then st.metaflush mdoff else st) a.metaflush := by
  by_cases hd : st.metadirty = true
  · rw [if_pos hd] at hsm ⊢
    rcases hq with hq | hq
    · obtain ⟨g', h1, _⟩ := inv_metaflush h hq hf hsm
      exact ⟨g', h1⟩
    · exact absurd hq (h.dirty.mp hd)
  · rw [if_neg hd] at hsm ⊢
    refine ⟨g, inv_clean h ?_⟩
    by_contra hc
    exact hd (h.dirty.mpr hc)

theorem Inv.np {cfg : Cfg} {g : Ghost} {st : FState} {a : AFile} (h : Inv cfg g st a) :
    st.ranks.length = a.queue.length := by
  rw [h.ranks, h.queue]; simp

theorem inv_prepare {cfg : Cfg} {g : Ghost} {st : FState} {a : AFile} (h : Inv cfg g st a)
    {coll : Bool} {doff mdoff : Nat} (hf : Fresh st doff) (hf' : Fresh st mdoff)
    (hm : doff + Spec.queued a ≤ mdoff)
    (hc : coll = true ∨ a.queue.length = 1 ∨ a.epoch.flatten = [] ∨ a.queue.flatten = []) :
    ∃ st', st.prepare coll doff mdoff = .ok st' ∧ (Small st' → ∃ g', Inv cfg g' st' (a.prepare coll)) := by
  unfold FState.prepare AFile.prepare
  rw [h.np]
  by_cases hb : (coll || decide (a.queue.length = 1)) = true
  · rw [hb, Bool.true_and, if_pos rfl]
    obtain ⟨st1, h1, h2, _, _, _, _, h3, h4⟩ := inv_fileFlush h hf
    unfold FState.fileFlush at h1
    rw [h1]
    refine ⟨_, rfl, fun hsm => ?_⟩
    have hsm1 : Small st1 := by
      split at hsm
      · exact Small.of_metaflush hsm
      · exact hsm
    obtain ⟨g1, i1, i2⟩ := h4 hsm1
    exact inv_dirty i1 (Or.inl i2) (fresh_after hf' h2 h3 hm) hsm
  · rw [Bool.not_eq_true] at hb
    rw [hb, Bool.false_and]
    simp only [Bool.false_eq_true, if_false]
    refine ⟨_, rfl, fun hsm => ?_⟩
    rw [Bool.or_eq_false_iff, decide_eq_false_iff_not] at hb
    refine inv_dirty h ?_ hf' hsm
    rcases hc with hc | hc | hc | hc
    · rw [hb.1] at hc; simp at hc
    · exact absurd hc hb.2
    · exact Or.inr hc
    · exact Or.inl (h.queue_nil hc)

theorem inv_search {cfg : Cfg} {g : Ghost} {st st' : FState} {a : AFile} (h : Inv cfg g st a)
    {fuel r : Nat} {qs : List RReq} {raw : List Hit} (hs : st.search fuel r qs = .ok (raw, st')) :
    Inv cfg g st' a := by
  unfold FState.search at hs
  cases hb : st.mbuf with
  | some lim =>
    rw [hb] at hs
    obtain ⟨hs', h1, h2⟩ := Res.bind_ok hs
    simp only [Res.pure_eq, Res.ok.injEq, Prod.mk.injEq] at h2
    rw [← h2.2]
    exact h
  | none =>
    rw [hb] at hs
    simp only at hs
    cases ho : st.idx[r]? with
    | none => rw [ho] at hs; simp at hs
    | some o =>
      rw [ho] at hs
      simp only at hs
      obtain ⟨ix, h1, h2⟩ := Res.bind_ok hs
      obtain ⟨hs', h3, h4⟩ := Res.bind_ok h2
      simp only [Res.pure_eq, Res.ok.injEq, Prod.mk.injEq] at h4
      rw [← h4.2]
      have hix : loadAll st.dsets st.cfg.share st.disk st.mds (Idx.empty st.compact) = .ok ix := by
        cases o with
        | none => exact h1
        | some ix' =>
          simp only [Res.ok.injEq] at h1
          subst h1
          exact h.cache r ix' ho
      exact { h with
        idxl := by simp only [List.length_set]; exact h.idxl
        cache := by
          intro i ix' hi
          simp only at hi ⊢
          rw [List.getElem?_set] at hi
          split at hi
          · split at hi
            · simp only [Option.some.injEq] at hi
              rw [← hi]; exact hix
            · simp at hi
          · exact h.cache i ix' hi }

theorem inv_reopen {cfg : Cfg} {g : Ghost} {st : FState} {a : AFile} (h : Inv cfg g st a)
    (he : a.epoch.flatten = []) {np : Nat} (h0 : 0 < np) (h1 : np < 2 ^ 31) (compact : Bool)
    (mbuf : Option Nat) (gone : Nat → Bool) :
    Inv cfg ⟨g.ls, g.mdx, List.replicate np ⟨Rank.init, [], []⟩⟩
      (FState.reopen np compact mbuf gone { st with saved := st.mds.length }) (a.reopen np gone) := by
  have hk : ∀ w, Known st.dsets w → Known (st.dsets.mapIdx (fun i o => if gone i then none else o)) w := by
    rintro w ⟨k1, k2⟩
    refine ⟨by simpa using k1, ?_⟩
    intro d hd
    rw [List.getElem?_mapIdx] at hd
    apply k2
    cases hh : st.dsets[w.did]? with
    | none => rw [hh] at hd; simp at hd
    | some o =>
      rw [hh] at hd
      simp only [Option.map_some, Option.some.injEq] at hd
      split at hd
      · simp at hd
      · rw [hd]
  have hfl : (List.replicate np (RS.mk Rank.init [] [])).flatMap RS.fl = [] := by
    rw [List.flatMap_eq_nil_iff]
    intro x hx
    rw [(List.mem_replicate.mp hx).2]
  unfold FState.reopen
  simp only [List.take_length]
  constructor
  case cfgEq => exact h.cfgEq
  case dsets => simp only [AFile.reopen]; rw [h.dsets]
  case ranks => simp
  case queue => simp [AFile.reopen]
  case epoch => simp [AFile.reopen]
  case idxl => simp
  case np0 => simpa using h0
  case np1 => simpa using h1
  case rok =>
    intro x hx
    rw [(List.mem_replicate.mp hx).2]
    exact RSOK.init cfg
  case wokm => exact fun x hx => ⟨(h.wokm x hx).1, hk _ (h.wokm x hx).2⟩
  case wokr =>
    intro y hy x hx
    rw [(List.mem_replicate.mp hy).2] at hx
    simp at hx
  case lay => exact h.lay
  case sto => exact h.sto
  case done => exact h.done
  case perm =>
    have := h.perm
    rw [h.fl_nil he] at this
    simp only [hfl]
    exact this
  case inl => exact h.inl
  case small => exact h.small
  case md => exact h.md
  case sec => exact h.sec
  case ord => exact h.ord
  case cache =>
    intro i ix hi
    simp only at hi
    obtain ⟨hl, e⟩ := List.getElem?_eq_some_iff.mp hi
    simp at e
  case dirty => simp [AFile.reopen]

theorem inv_close {cfg : Cfg} {g : Ghost} {st : FState} {a : AFile} (h : Inv cfg g st a)
    {doff mdoff : Nat} (hf : Fresh st doff) (hf' : Fresh st mdoff) (hm : doff + Spec.queued a ≤ mdoff) :
    ∃ st2, st.close doff mdoff = .ok { st2 with saved := st2.mds.length } ∧
      (Small st2 → ∃ g', Inv cfg g' st2 a.flush.metaflush) := by
  obtain ⟨st1, h1, h2, _, _, _, _, h3, h4⟩ := inv_flush h hf
  refine ⟨st1.metaflush mdoff, ?_, fun hsm => ?_⟩
  · unfold FState.close
    rw [h1]; rfl
  · obtain ⟨g1, i1, i2⟩ := h4 (Small.of_metaflush hsm)
    obtain ⟨g2, j1, j2⟩ := inv_metaflush i1 i2 (fresh_after hf' h2 h3 hm) hsm
    exact ⟨g2, j1⟩

/-- All histories. -/
theorem reach_inv {cfg : Cfg} {st : FState} {a : AFile} (h : Spec.Reach cfg st a) :
    ∃ g, Inv cfg g st a := by
  induction h with
  | create compact mbuf np disk h h2 => exact ⟨_, inv_create h h2⟩
  | addDset d _ ih =>
    obtain ⟨g, i⟩ := ih
    refine ⟨g, ?_⟩
    have := inv_dsets i (dsExt_append _ d)
    unfold FState.addDset AFile.addDset
    rw [← i.dsets]; exact this
  | setDims did dims d _ h1 h2 ih =>
    obtain ⟨g, i⟩ := ih
    refine ⟨g, ?_⟩
    have := inv_dsets i (dsExt_setDims (dims := dims) (by rw [i.dsets]; exact h1) h2)
    unfold FState.setDims AFile.setDims
    rw [← i.dsets]; exact this
  | @write st a st' r w _ h1 h2 ih =>
    obtain ⟨g, i⟩ := ih
    have hr : r < a.queue.length := by
      rw [← i.np]
      by_contra hc
      unfold FState.write at h2
      rw [List.getElem?_eq_none (by omega)] at h2
      simp at h2
    obtain ⟨st1, g1, e, i1⟩ := inv_write i h1 hr
    rw [h2] at e
    simp only [Res.ok.injEq] at e
    subst e
    exact ⟨g1, i1⟩
  | flush doff _ h1 h2 h3 ih =>
    obtain ⟨g, i⟩ := ih
    obtain ⟨st1, e, _, _, _, _, _, _, h4⟩ := inv_fileFlush i h1
    rw [h2] at e
    simp only [Res.ok.injEq] at e
    subst e
    obtain ⟨g1, i1, _⟩ := h4 h3
    exact ⟨g1, i1⟩
  | prepare coll doff mdoff _ h1 h2 h3 h4 h5 h6 ih =>
    obtain ⟨g, i⟩ := ih
    obtain ⟨st1, e, h7⟩ := inv_prepare i h1 h2 h3 h4
    rw [h5] at e
    simp only [Res.ok.injEq] at e
    subst e
    exact h7 h6
  | search fuel r qs _ _ h1 ih =>
    obtain ⟨g, i⟩ := ih
    exact ⟨g, inv_search i h1⟩
  | @reopen st a st' doff mdoff np compact mbuf gone _ h1 h2 h3 h4 h5 h6 h7 ih =>
    obtain ⟨g, i⟩ := ih
    obtain ⟨st2, e, h8⟩ := inv_close i h1 h2 h3
    rw [h6] at e
    simp only [Res.ok.injEq] at e
    subst e
    obtain ⟨g2, i2⟩ := h8 h7
    refine ⟨_, inv_reopen i2 ?_ h4 h5 compact mbuf gone⟩
    simp [AFile.metaflush]

end Verif
