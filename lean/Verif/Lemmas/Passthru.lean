import Verif.Spec.Passthru
import Verif.Lemmas.FileTop

/-
Passthru mode compared with the other mode.
-/

namespace Verif

open Spec (AW AFile Reach ReachP Light LightMd Fresh Small Passable ReqsWF Served Repeats ReadResult ReturnsP
  Layout ReadOK)
open Props.Spec (Fits Flat)

/-! ### Writes -/

theorem sum_ge {α : Type} (f : α → Nat) {l : List α} {x : α} (h : x ∈ l) : f x ≤ (l.map f).sum := by
  induction l with
  | nil => simp at h
  | cons a l ih =>
    simp only [List.map_cons, List.sum_cons]
    rcases List.mem_cons.mp h with rfl | h
    · omega
    · have := ih h
      omega

theorem packLoop_eq : ∀ (bs : List (List Byte)) (pos : Nat), pos < 2 ^ 31 →
    packLoop pos bs = if pos + (bs.map List.length).sum < 2 ^ 31 then .ok bs.flatten else .ub
  | [], pos, h => by
    rw [packLoop, if_pos (by simpa using h)]
    rfl
  | b :: bs, pos, h => by
    unfold packLoop
    by_cases hb : pos + b.length < 2 ^ 31
    · rw [if_pos hb, packLoop_eq bs _ hb]
      simp only [List.map_cons, List.sum_cons, List.flatten_cons, ← Nat.add_assoc]
      split <;> rfl
    · rw [if_neg hb, if_neg]
      simp only [List.map_cons, List.sum_cons]
      omega

theorem putAll_eq (doff N : Nat) : ∀ (ps : List (List (List Byte))) (acc : Nat) (d : Mem),
    acc + (ps.map (fun p => (p.map List.length).sum)).sum ≤ N →
    putAll ⟨doff, N⟩ d (ps.zip (exscan acc (ps.map (fun p => (p.map List.length).sum)))) =
      if (∀ p ∈ ps, (p.map List.length).sum < 2 ^ 31) then
        .ok ((ps.zip (exscan acc (ps.map (fun p => (p.map List.length).sum)))).foldl
          (fun d p => writeAt d (p.2 + doff) p.1.flatten) d)
      else .ub
  | [], acc, d, _ => by simp [putAll]
  | p :: ps, acc, d, h => by
    simp only [List.map_cons, List.sum_cons] at h
    simp only [List.map_cons, exscan, List.zip_cons_cons, putAll, List.foldl_cons, List.forall_mem_cons]
    rw [packLoop_eq p 0 (by decide), Nat.zero_add]
    by_cases hp : (p.map List.length).sum < 2 ^ 31
    · rw [if_pos hp, Res.ok_bind]
      have he : Ext.put ⟨doff, N⟩ d acc p.flatten = .ok (writeAt d (acc + doff) p.flatten) := by
        unfold Ext.put
        rw [if_pos]
        rw [List.length_flatten]
        simp only
        omega
      rw [he, Res.ok_bind, putAll_eq doff N ps _ _ (by omega)]
      by_cases hall : ∀ p ∈ ps, (p.map List.length).sum < 2 ^ 31
      · rw [if_pos hall, if_pos ⟨hp, hall⟩]
      · rw [if_neg hall, if_neg (fun h => hall h.2)]
    · rw [if_neg hp, if_neg (fun h => hp h.1)]
      rfl

theorem foldl_zip_map {α β γ δ : Type} (f : α → β) (g : δ → β → γ → δ) : ∀ (l : List α) (m : List γ) (d : δ),
    ((l.map f).zip m).foldl (fun d p => g d p.1 p.2) d = (l.zip m).foldl (fun d p => g d (f p.1) p.2) d
  | [], m, d => by simp
  | a :: l, [], d => by simp
  | a :: l, b :: m, d => by
    simp only [List.map_cons, List.zip_cons_cons, List.foldl_cons]
    exact foldl_zip_map f g l m _

theorem flushP_eq (st : FState) (doff : Nat) :
    st.flushP doff = if ∀ k ∈ st.ranks, k.localSize < 2 ^ 31 then st.flush doff else .ub := by
  have hsz : st.ranks.map Rank.localSize =
      (st.ranks.map (fun k => k.pending.map (fun r => r.data))).map (fun p => (p.map List.length).sum) := by
    rw [List.map_map]
    apply List.map_congr_left
    intro k _
    simp only [Function.comp, List.map_map]
    rfl
  unfold FState.flushP FState.flush
  by_cases hall : st.ranks.all (fun k => k.pending.all (fun r => decide (r.data.length < 2 ^ 31))) = true
  · rw [if_pos hall, if_pos hall]
    simp only
    by_cases h0 : (st.ranks.map Rank.localSize).sum = 0
    · rw [if_pos h0, if_pos h0, if_pos]
      intro k hk
      have := sum_ge Rank.localSize hk
      omega
    · rw [if_neg h0, if_neg h0]
      have := putAll_eq doff (st.ranks.map Rank.localSize).sum (st.ranks.map (fun k => k.pending.map (fun r => r.data))) 0
        st.disk (by rw [hsz]; omega)
      rw [← hsz] at this
      rw [this]
      have hc : (∀ p ∈ st.ranks.map (fun k => k.pending.map (fun r => r.data)), (p.map List.length).sum < 2 ^ 31) ↔
          ∀ k ∈ st.ranks, k.localSize < 2 ^ 31 := by
        simp only [List.forall_mem_map, List.map_map]
        rfl
      by_cases hs : ∀ k ∈ st.ranks, k.localSize < 2 ^ 31
      · rw [if_pos (hc.mpr hs), if_pos hs, Res.ok_bind, foldl_zip_map (fun k : Rank => k.pending.map (fun r => r.data))
          (fun d p off => writeAt d (off + doff) p.flatten)]
        simp only [Res.pure_eq, List.flatMap_def]
      · rw [if_neg (fun h => hs (hc.mp h)), if_neg hs]
        rfl
  · rw [if_neg hall, if_neg hall]
    split <;> rfl

theorem mdPieces_flatten (ranks : List Rank) : (mdPieces ranks).map List.flatten = mdBufs ranks := by
  unfold mdPieces mdBufs
  apply List.ext_getElem (by simp)
  intro i h1 h2
  simp only [List.getElem_map, List.getElem_mapIdx, List.flatten_append]
  congr 1
  split <;> simp

theorem mdPieces_sizes (ranks : List Rank) : (mdPieces ranks).map (fun p => (p.map List.length).sum) = mdSizes ranks := by
  unfold mdPieces mdSizes
  apply List.ext_getElem (by simp)
  intro i h1 h2
  simp only [List.getElem_map, List.getElem_mapIdx, List.map_append, List.sum_append, List.map_map]
  congr 1
  · split
    · rename_i hi
      simp only [List.map_cons, List.map_nil, List.sum_cons, List.sum_nil, putWords_length, List.length_cons, inscan_length,
        List.length_mapIdx]
      omega
    · simp
  · congr 1
    apply List.map_congr_left
    intro r _
    exact WReq.bytes_length r

theorem metaflushP_eq (st : FState) (mdoff : Nat) :
    st.metaflushP mdoff = if 8 * (st.ranks.length + 1) < (mdSizes st.ranks).sum → LightMd st then .ok (st.metaflush mdoff) else .ub := by
  unfold FState.metaflushP FState.metaflush
  simp only
  by_cases h : 8 * (st.ranks.length + 1) < (mdSizes st.ranks).sum
  · rw [if_pos h, if_pos h]
    have := putAll_eq mdoff (mdSizes st.ranks).sum (mdPieces st.ranks) 0 st.disk (by rw [mdPieces_sizes]; omega)
    rw [mdPieces_sizes] at this
    rw [this]
    have hc : (∀ p ∈ mdPieces st.ranks, (p.map List.length).sum < 2 ^ 31) ↔ LightMd st := by
      unfold LightMd
      rw [← mdPieces_sizes, List.forall_mem_map]
    by_cases hl : LightMd st
    · rw [if_pos (hc.mpr hl), if_pos (fun _ => hl), ← mdPieces_flatten,
        foldl_zip_map List.flatten (fun d p off => writeAt d (off + mdoff) p)]
      rfl
    · rw [if_neg (fun h => hl (hc.mp h)), if_neg (fun h' => hl (h' h))]
      rfl
  · rw [if_neg h, if_neg h, if_pos (fun h' => absurd h' h)]
    rfl

theorem localOffs_meta : ∀ (acc : Nat) (l : List WReq), (localOffs acc l).map WReq.metaSize = l.map WReq.metaSize
  | _, [] => rfl
  | acc, r :: rs => by
    simp only [localOffs, List.map_cons, localOffs_meta]
    rfl

theorem flush_mdSizes {st st' : FState} {doff : Nat} (h : st.flush doff = .ok st') : mdSizes st'.ranks = mdSizes st.ranks := by
  have key : ∀ {l : List Rank}, l.length = st.ranks.length →
      (∀ i (h1 : i < l.length) (h2 : i < st.ranks.length), l[i].wreqs.map WReq.metaSize = st.ranks[i].wreqs.map WReq.metaSize) →
      mdSizes l = mdSizes st.ranks := by
    intro l hl hm
    unfold mdSizes
    apply List.ext_getElem (by simpa using hl)
    intro i h1 h2
    simp only [List.length_mapIdx] at h1 h2
    simp only [List.getElem_mapIdx]
    rw [hm i h1 h2, hl]
  have taken : ∀ k : Rank, (k.wreqs.take k.nflushed ++ localOffs 0 k.pending).map WReq.metaSize = k.wreqs.map WReq.metaSize := by
    intro k
    rw [List.map_append, localOffs_meta, ← List.map_append]
    unfold Rank.pending
    rw [List.take_append_drop]
  have moved : ∀ (l : List WReq) (off : Nat), (l.map (fun r => { r with foff := r.foff + off })).map WReq.metaSize = l.map WReq.metaSize := by
    intro l off
    rw [List.map_map]
    rfl
  unfold FState.flush at h
  split at h
  · simp only at h
    split at h
    · injection h with h
      subst h
      apply key (by simp)
      intro i h1 h2
      simp only [List.getElem_map]
      exact taken _
    · injection h with h
      subst h
      apply key (by simp [exscan_length])
      intro i h1 h2
      simp only [List.getElem_zipWith]
      unfold Rank.flushAt
      simp only
      rw [List.map_append, moved, ← List.map_append]
      exact taken _
  · simp at h

theorem Inv.light {cfg : Cfg} {g : Ghost} {st : FState} {a : AFile} (h : Inv cfg g st a) :
    (∀ k ∈ st.ranks, k.localSize < 2 ^ 31) ↔ Light a := by
  unfold Light
  rw [h.ranks, h.queue, List.forall_mem_map, List.forall_mem_map]
  have : ∀ x ∈ g.rs, x.k.localSize = ((x.qu.map (·.1)).map (fun w => w.data.length)).sum := by
    intro x hx
    unfold Rank.localSize
    rw [(h.rok x hx).pending, List.map_map, List.map_map]
    congr 1
    apply List.map_congr_left
    intro y hy
    simp only [Function.comp]
    rw [data_of_section (h.rok x hx).inv.sec y (by simp [hy])]
  constructor
  · intro hh x hx
    rw [← this x hx]
    exact hh x hx
  · intro hh x hx
    rw [this x hx]
    exact hh x hx

theorem reachP_reach {cfg : Cfg} {st : FState} {a : AFile} (h : ReachP cfg st a) : Reach cfg st a := by
  have flush : ∀ {st st' : FState} {doff : Nat}, st.flushP doff = .ok st' → st.flush doff = .ok st' := by
    intro st st' doff h
    rw [flushP_eq] at h
    split at h
    · exact h
    · simp at h
  have meta' : ∀ {st st' : FState} {mdoff : Nat}, st.metaflushP mdoff = .ok st' → st.metaflush mdoff = st' := by
    intro st st' mdoff h
    rw [metaflushP_eq] at h
    split at h
    · injection h
    · simp at h
  have prep : ∀ {st st' : FState} {coll : Bool} {doff mdoff : Nat}, st.prepareP coll doff mdoff = .ok st' →
      st.prepare coll doff mdoff = .ok st' := by
    intro st st' coll doff mdoff h
    unfold FState.prepareP at h
    obtain ⟨st1, e1, e2⟩ := Res.bind_ok h
    have e1' : (if (coll || decide (st.ranks.length = 1)) && st.anyPending then st.flush doff else .ok st : Res FState) = .ok st1 := by
      split at e1
      · rename_i hp
        rw [if_pos hp]
        exact flush e1
      · rename_i hp
        rw [if_neg hp]
        exact e1
    unfold FState.prepare
    rw [e1', Res.ok_bind]
    split at e2
    · rename_i hd
      rw [if_pos hd, meta' e2]
      rfl
    · rename_i hd
      rw [if_neg hd]
      exact e2
  induction h with
  | create compact mbuf np disk h h2 => exact .create compact mbuf np disk h h2
  | addDset d _ ih => exact .addDset d ih
  | setDims did dims d _ h1 h2 ih => exact .setDims did dims d ih h1 h2
  | write r w _ h1 h2 ih => exact .write r w ih h1 h2
  | flush doff _ h1 h2 h3 ih =>
    refine .flush doff ih h1 ?_ h3
    unfold FState.fileFlushP at h2
    unfold FState.fileFlush
    split at h2
    · rename_i hp
      rw [if_pos hp]
      exact flush h2
    · rename_i hp
      rw [if_neg hp]
      exact h2
  | prepare coll doff mdoff _ h1 h2 h3 h4 h5 h6 ih =>
    refine .prepare coll doff mdoff ih h1 h2 h3 h4 ?_ h6
    exact prep h5
  | search fuel r qs _ h1 h2 ih => exact .search fuel r qs ih h1 h2
  | reopen doff mdoff np compact mbuf gone _ h1 h2 h3 h4 h5 h6 h7 ih =>
    refine .reopen doff mdoff np compact mbuf gone ih h1 h2 h3 h4 h5 ?_ h7
    unfold FState.closeP at h6
    obtain ⟨st1, e1, e2⟩ := Res.bind_ok h6
    obtain ⟨st2, e3, e4⟩ := Res.bind_ok e2
    unfold FState.close
    rw [flush e1, Res.ok_bind, meta' e3]
    exact e4

/-! ### Reads -/

/-- The log dataset of an address, when later log datasets have larger addresses. -/
theorem logAt_mem {lds : List Ext} (ho : lds.Pairwise (fun e e' => e.addr + e.size ≤ e'.addr)) {e : Ext} (he : e ∈ lds) {f : Int}
    (h1 : (e.addr : Int) ≤ f) (h2 : f < (e.addr + e.size : Nat)) : logAt lds f = some e := by
  obtain ⟨l1, l2, rfl⟩ := List.append_of_mem he
  unfold logAt
  rw [List.reverse_append, List.reverse_cons, List.append_assoc, List.find?_append]
  have hn : l2.reverse.find? (fun e => decide ((e.addr : Int) ≤ f)) = none := by
    rw [List.find?_eq_none]
    intro x hx
    have := (List.pairwise_cons.mp (List.pairwise_append.mp ho).2.1).1 x (List.mem_reverse.mp hx)
    simp only [decide_eq_true_eq]
    omega
  rw [hn, Option.none_or, List.singleton_append, List.find?_cons_of_pos (by simpa using h1)]

theorem logAt_some {lds : List Ext} {e : Ext} (he : e ∈ lds) {f : Int} (h1 : (e.addr : Int) ≤ f) : ∃ e', logAt lds f = some e' := by
  unfold logAt
  cases h : lds.reverse.find? (fun e => decide ((e.addr : Int) ≤ f)) with
  | some e' => exact ⟨e', rfl⟩
  | none =>
    rw [List.find?_eq_none] at h
    exact absurd (decide_eq_true h1) (h e (List.mem_reverse.mpr he))

/-- A piece inside a log dataset. -/
def InLog (lds : List Ext) (s : Seg) : Prop := ∃ e ∈ lds, (e.addr : Int) ≤ s.f ∧ s.f + s.len ≤ (e.addr + e.size : Nat)

theorem passSeg_ok {lds : List Ext} (ho : lds.Pairwise (fun e e' => e.addr + e.size ≤ e'.addr)) {s : Seg} (h : InLog lds s) :
    passSeg lds s = .ok s.pairs := by
  obtain ⟨e, he, h1, h2⟩ := h
  unfold passSeg
  by_cases h0 : s.len = 0
  · obtain ⟨e', h'⟩ := logAt_some he h1
    simp only [h', if_pos (Or.inl h0)]
  · simp only [logAt_mem ho he h1 (by omega)]
    rw [if_pos]
    right
    omega

theorem trim_inside : ∀ (n : Nat) (l : List Seg), l.length = n → ∀ s ∈ (trim l).1, ∃ s0 ∈ l, s0.f ≤ s.f ∧ s.f + s.len = s0.f + s0.len
  | 0, l, hn, s, hs => by
    rw [List.length_eq_zero_iff.mp hn, trim] at hs
    simp at hs
  | n + 1, [], hn, _, _ => by simp at hn
  | n + 1, k :: ls, hn, s, hs => by
    rw [trim] at hs
    rcases List.mem_cons.mp hs with rfl | hs
    · exact ⟨s, by simp, Int.le_refl _, rfl⟩
    · obtain ⟨s1, m1, a1, a2⟩ := trim_inside n ((ls.map (trimOne k)).map Prod.fst) (by simpa using hn) s hs
      obtain ⟨p, hp, rfl⟩ := List.mem_map.mp m1
      obtain ⟨l, hl, rfl⟩ := List.mem_map.mp hp
      obtain ⟨i, i1, i2, _⟩ := trimOne_any k l
      rw [i2] at a1 a2
      simp only at a1 a2
      exact ⟨l, by simp [hl], by omega, by omega⟩

/-- A search result that can be read in passthru mode. -/
structure HitP (lds : List Ext) (h : Hit) : Prop where
  shape : HitShape h
  pos : HitPos h
  file : HitFile h
  mem : SubOK h.msize h.count h.mstart
  flat : Flat h.count
  scalar : h.d.ndim = 0 → h.fsize = h.d.esize
  inl : ∃ e ∈ lds, (e.addr : Int) ≤ h.key ∧ h.key + (h.d.esize * prod h.dsize : Nat) ≤ (e.addr + e.size : Nat)

theorem SubOK.fits : ∀ {n c s : List Nat}, SubOK n c s → Fits s n c
  | [], [], [], _ => trivial
  | _ :: _, _ :: _, _ :: _, h => ⟨h.tail.1, h.tail.2.1, SubOK.fits h.tail.2.2⟩
  | [], _ :: _, _, h => absurd h.lc (by simp)
  | [], [], _ :: _, h => absurd h.ls (by simp)
  | _ :: _, [], _, h => absurd h.lc (by simp)
  | _ :: _, _ :: _, [], h => absurd h.ls (by simp)

theorem HitP.size_pos {lds : List Ext} {h : Hit} (hp : HitP lds h) : 0 < h.d.esize * prod h.dsize :=
  Nat.mul_pos hp.pos.es (SubOK.fits hp.file.sub).prod_pos.1

theorem HitP.pass {lds : List Ext} (ho : lds.Pairwise (fun e e' => e.addr + e.size ≤ e'.addr)) {h : Hit} (hp : HitP lds h) :
    ∃ e, logAt lds h.key = some e ∧ passHit e.addr e.size h = .ok (hitPairs h) := by
  obtain ⟨e, he, h1, h2⟩ := hp.inl
  have := hp.size_pos
  refine ⟨e, logAt_mem ho he h1 (by omega), ?_⟩
  by_cases h0 : h.d.ndim = 0
  · have hc : h.count = [] := List.length_eq_zero_iff.mp (by rw [hp.shape.nd, h0])
    have hz : h.dsize = [] := List.length_eq_zero_iff.mp (by rw [hp.shape.dz, h0])
    rw [hz] at h2
    simp only [prod_nil, Nat.mul_one] at h2
    have hpairs : hitPairs h = (List.range h.d.esize).map (fun k => (h.key + (k : Nat), h.xbuf + k)) := by
      have := hitElems_pairs hp.shape (segs := [{ f := h.key, m := h.xbuf, len := h.d.esize }]) (by
        unfold hitElems
        rw [if_pos h0])
      rw [← this]
      simp [Seg.pairs]
    unfold passHit
    rw [if_pos h0, if_pos ⟨hp.scalar h0, by omega⟩, hpairs]
  · exact Props.C38_block_partial h0 hp.shape.nd hp.file.sub.fits hp.mem.fits hp.flat h1 h2

theorem HitP.row {lds : List Ext} {h : Hit} (hp : HitP lds h) {s : List Seg} (hs : hitRows h = .ok s) {x : Seg} (hx : x ∈ s) :
    InLog lds x := by
  obtain ⟨e, he, h1, h2⟩ := hp.inl
  refine ⟨e, he, ?_⟩
  have hpos := hitRows_pos hp.pos hs x hx
  have hpairs := hitRows_pairs hp.shape hs
  have hin : ∀ i < x.len, (e.addr : Int) ≤ x.f + (i : Nat) ∧ x.f + (i : Nat) < (e.addr + e.size : Nat) := by
    intro i hi
    have hm : (x.f + (i : Nat), x.m + i) ∈ hitPairs h := by
      rw [← hpairs]
      exact List.mem_flatMap.mpr ⟨x, hx, List.mem_map.mpr ⟨i, List.mem_range.mpr hi, rfl⟩⟩
    have hr := hitPairs_range hp.file hm
    have hl := Nat.mul_le_mul_left h.d.esize (Hit.lst_lt hp.file)
    simp only at hr
    have : ((h.d.esize * (h.lst + 1) : Nat) : Int) ≤ (h.d.esize * prod h.dsize : Nat) := by exact_mod_cast hl
    have h0 : (0 : Int) ≤ (h.d.esize * h.fst : Nat) := Int.natCast_nonneg _
    omega
  have a := hin 0 hpos
  have b := hin (x.len - 1) (by omega)
  omega

theorem flatMapRes_all {α β : Type} {f : α → Res (List β)} {g : α → List β} {l : List α} (h : ∀ a ∈ l, f a = .ok (g a)) :
    flatMapRes f l = .ok (l.flatMap g) := by
  induction l with
  | nil => rfl
  | cons a l ih =>
    unfold flatMapRes
    rw [h a (by simp), ih (fun b hb => h b (by simp [hb]))]
    rfl

theorem passGroup_eq {lds : List Ext} (ho : lds.Pairwise (fun e e' => e.addr + e.size ≤ e'.addr)) {g : List Hit}
    (hp : ∀ h ∈ g, HitP lds h) {r : List Seg × List Copy} (h : groupSegs g = .ok r) :
    passGroup lds g = .ok (r.1.flatMap Seg.pairs, r.2) := by
  unfold groupSegs at h
  unfold passGroup
  split at h
  · rename_i x
    obtain ⟨s, hs, h⟩ := Res.bind_ok h
    have h := Res.pure_ok h
    subst h
    obtain ⟨e, e1, e2⟩ := (hp x (by simp)).pass ho
    simp only [e1, e2, Res.ok_bind, hitElems_pairs (hp x (by simp)).shape hs]
    rfl
  · rename_i hne
    obtain ⟨s, hs, h⟩ := Res.bind_ok h
    have h := Res.pure_ok h
    subst h
    have key : (do
        let s ← flatMapRes hitRows g
        let p ← flatMapRes (passSeg lds) (trim (sortoffsets s)).1
        return (p, (trim (sortoffsets s)).2) : Res (List (Int × Nat) × List Copy)) =
        .ok ((trim (sortoffsets s)).1.flatMap Seg.pairs, (trim (sortoffsets s)).2) := by
      rw [hs, Res.ok_bind, flatMapRes_all (g := Seg.pairs)]
      · rfl
      · intro x hx
        apply passSeg_ok ho
        obtain ⟨x0, m0, a1, a2⟩ := trim_inside _ _ rfl x hx
        obtain ⟨y, y1, t, t1, t2⟩ := mem_flatMapRes hs x0 ((sortoffsets_perm s).mem_iff.mp m0)
        obtain ⟨e, he, b1, b2⟩ := (hp y y1).row t1 t2
        exact ⟨e, he, by omega, by omega⟩
    split
    · exact absurd rfl (hne _)
    · exact key

theorem passGroups_eq {lds : List Ext} (ho : lds.Pairwise (fun e e' => e.addr + e.size ≤ e'.addr)) {gs : List (List Hit)}
    (hp : ∀ h ∈ gs.flatten, HitP lds h) {r : List Seg × List Copy} (h : genSegs gs = .ok r) :
    passGroups lds gs = .ok (r.1.flatMap Seg.pairs, r.2) := by
  induction gs generalizing r with
  | nil =>
    injection h with h
    subst h
    rfl
  | cons g gs ih =>
    simp only [genSegs] at h
    obtain ⟨x, hx, h⟩ := Res.bind_ok h
    obtain ⟨y, hy, h⟩ := Res.bind_ok h
    have h := Res.pure_ok h
    subst h
    simp only [List.flatten_cons, List.mem_append] at hp
    unfold passGroups
    rw [passGroup_eq ho (fun z hz => hp z (Or.inl hz)) hx, Res.ok_bind, ih (fun z hz => hp z (Or.inr hz)) hy]
    simp only [Res.ok_bind, List.flatMap_append]
    rfl

theorem readHitsP_eq {lds : List Ext} (ho : lds.Pairwise (fun e e' => e.addr + e.size ≤ e'.addr)) {hs : List Hit}
    (hp : ∀ h ∈ hs, HitP lds h) {disk mem mem' : Mem} (h : coreRead disk hs mem = .ok mem') : readHitsP disk lds hs mem = .ok mem' := by
  unfold coreRead at h
  obtain ⟨r, hr, h⟩ := Res.bind_ok h
  unfold readHitsP
  rw [passGroups_eq ho (by rw [groups_flatten]; exact hp) hr]
  exact h

theorem coreRead_ok {hs : List Hit} (hsh : ∀ h ∈ hs, HitShape h) (hps : ∀ h ∈ hs, HitPos h) (hf : ∀ h ∈ hs, HitFile h)
    (hm : ∀ h ∈ hs, subarrayOK h.msize h.count h.mstart = true)
    (hr : ∀ g ∈ groups hs, 1 < g.length → ∀ h ∈ g, RowOK h) (disk mem : Mem) : ∃ mem', coreRead disk hs mem = .ok mem' := by
  have hfl := groups_flatten hs
  have : ∀ gs : List (List Hit), (∀ g ∈ gs, g ∈ groups hs) → ∃ r, genSegs gs = .ok r := by
    intro gs
    induction gs with
    | nil => exact fun _ => ⟨([], []), rfl⟩
    | cons g gs ih =>
      intro hg
      obtain ⟨r, r1⟩ := ih (fun x hx => hg x (by simp [hx]))
      have hsub : ∀ z ∈ g, z ∈ hs := by
        intro z hz
        rw [← hfl]
        exact List.mem_flatten.mpr ⟨g, hg g (by simp), hz⟩
      obtain ⟨s, s1, _⟩ := groupSegs_ok (fun z hz => hsh z (hsub z hz)) (fun z hz => hps z (hsub z hz))
        (fun z hz => hf z (hsub z hz)) (fun z hz => hm z (hsub z hz)) (hr g (hg g (by simp)))
      refine ⟨(s.1 ++ r.1, s.2 ++ r.2), ?_⟩
      simp only [genSegs, s1, r1, Res.ok_bind]
      rfl
  obtain ⟨r, r1⟩ := this (groups hs) (fun _ h => h)
  unfold coreRead
  rw [r1]
  exact ⟨_, rfl⟩

theorem subarray_le : ∀ {n c s : List Nat}, c.length = n.length → s.length = n.length → subarrayOK n c s = true →
    ∀ i x : Nat, c[i]? = some x → ∃ y, n[i]? = some y ∧ 1 ≤ x ∧ x ≤ y
  | [], [], [], _, _, _, i, x, h => by simp at h
  | n :: ns, c :: cs, s :: ss, h1, h2, h3, i, x, h => by
    simp only [subarrayOK, Bool.and_eq_true, decide_eq_true_eq] at h3
    cases i with
    | zero =>
      simp only [List.getElem?_cons_zero, Option.some.injEq] at h
      subst h
      exact ⟨n, rfl, by omega, by omega⟩
    | succ i =>
      simp only [List.getElem?_cons_succ] at h ⊢
      exact subarray_le (by simpa using h1) (by simpa using h2) h3.2 i x h
  | [], _ :: _, _, h, _, _, _, _, _ => by simp at h
  | [], [], _ :: _, _, h, _, _, _, _ => by simp at h
  | _ :: _, [], _, h, _, _, _, _, _ => by simp at h
  | _ :: _, _ :: _, [], _, h, _, _, _, _ => by simp at h

theorem fsize_hitOf {q : RReq} {rb : Blk} {soff : Nat} {foff fsize : Int} {s : MSel} {h : Hit}
    (hh : h ∈ hitOf q rb soff foff fsize s) : h.fsize = fsize := by
  unfold hitOf at hh
  split at hh
  · simp at hh
  · rw [List.mem_singleton] at hh
    rw [hh]

section
variable {ls : List (AW × Int)} {qs : List RReq} {lds : List Ext}

theorem From.passable (hl : Layout ls) (ok : ReadOK ls qs) (pa : Passable (ls.map Prod.fst) qs)
    (hin : ∀ x ∈ ls, ∃ e ∈ lds, (e.addr : Int) ≤ x.2 ∧ x.2 + (x.1.data.length : Int) ≤ (e.addr + e.size : Nat))
    {h : Hit} {q : RReq} {p : Blk × Nat} {x : AW × Int} {s : MSel} (f : From ls qs h q p x s) :
    HitP lds h ∧ (h.d.ndim ≠ 0 → RowOK h) := by
  have ft := f.fit ok
  have hmem : h ∈ qs.flatMap (fun q => hitsReq q ls) := by
    refine List.mem_flatMap.mpr ⟨q, f.hq, List.mem_flatMap.mpr ⟨p, f.hp, ?_⟩⟩
    unfold hitsBlk
    exact List.mem_flatMap.mpr ⟨x, List.mem_filter.mpr ⟨f.hx, decide_eq_true f.hd⟩, List.mem_flatMap.mpr ⟨s, f.hs, f.mem⟩⟩
  obtain ⟨sh, ps⟩ := hits_shape ok hmem
  obtain ⟨hf, hm⟩ := f.hitFile hl ok
  obtain ⟨i, hi, hpe⟩ := mem_withOffs.mp f.hp
  have hb : p.1 ∈ q.bs := by rw [hpe]; exact List.getElem_mem hi
  obtain ⟨os, oc, _, h1, h2, h3, h4, h5, h6, h7, h8⟩ := mem_hitOf f.mem
  have hsub : SubOK h.msize h.count h.mstart := ⟨by rw [sh.nd, sh.mz], by rw [sh.ms, sh.mz], hm⟩
  have es := ok.dset x f.hx q f.hq f.hd
  refine ⟨⟨sh, ps, hf, hsub, ?_, ?_, ?_⟩, ?_⟩
  · intro j j1 j2
    have hj : h.count[j]? = some (h.count[j]'(by omega)) := List.getElem?_eq_getElem (by omega)
    obtain ⟨y, y1, y2, y3⟩ := subarray_le hsub.lc hsub.ls hm j _ hj
    have := pa.flat q f.hq p.1 hb j j1 (by rw [← h4, ← hsub.lc]; exact j2)
    rw [h4, this] at y1
    injection y1 with y1
    rw [hj]
    congr 1
    omega
  · intro h0
    rw [h1] at h0
    have hw := pa.elem q f.hq h0 x.1 (List.mem_map_of_mem f.hx) f.hd
    have hz := (hl.sized x f.hx).2 hw
    unfold AW.Exact at hz
    obtain ⟨b, hbs⟩ := List.length_eq_one_iff.mp hw
    have hbc : b.count = [] := by
      have := (ok.wshape x f.hx b (by rw [hbs]; simp)).2
      exact List.length_eq_zero_iff.mp (by rw [this, es.1, h0])
    rw [fsize_hitOf f.mem, hz, hbs, h1, es.2]
    simp [Blk.size, hbc, prod]
  · obtain ⟨e, he, a1, a2⟩ := hin x f.hx
    have k := key_hitOf ft f.mem
    have e1 := sels_end f.hs
    have e2 := hl.sized x f.hx
    have e1 := Nat.le_trans e1 e2.1
    rw [es.2] at e1
    refine ⟨e, he, ?_, ?_⟩
    · rw [k]
      omega
    · rw [k, h1, h2]
      have : ((s.doff + q.d.esize * prod s.count : Nat) : Int) ≤ (x.1.data.length : Nat) := by exact_mod_cast e1
      push_cast at this ⊢
      omega
  · intro h0
    have hne : h.count ≠ [] := by
      intro hc
      have := sh.nd
      rw [hc] at this
      exact h0 (by simpa using this.symm)
    have hlen : 0 < h.count.length := List.length_pos_iff.mpr hne
    obtain ⟨y, y1, _, y3⟩ := subarray_le hsub.lc hsub.ls hm (h.count.length - 1) _ (List.getElem?_eq_getElem (by omega))
    refine ⟨_, by rw [List.getLast?_eq_getElem?]; exact List.getElem?_eq_getElem (by omega), ?_⟩
    have := pa.row q f.hq p.1 hb y (by rw [List.getLast?_eq_getElem?, ← h4, ← hsub.lc]; exact y1)
    rw [h1]
    calc _ ≤ y * q.d.esize := Nat.mul_le_mul_right _ y3
      _ < 2 ^ 31 := this

/-- Reading in passthru mode succeeds and gives what reading the pieces gives. -/
theorem readP_total (hl : Layout ls) (ok : ReadOK ls qs) (pa : Passable (ls.map Prod.fst) qs)
    (ho : lds.Pairwise (fun e e' => e.addr + e.size ≤ e'.addr))
    (hin : ∀ x ∈ ls, ∃ e ∈ lds, (e.addr : Int) ≤ x.2 ∧ x.2 + (x.1.data.length : Int) ≤ (e.addr + e.size : Nat))
    (disk mem : Mem) {raw hs : List Hit} (hr : raw.map Hit.noX = qs.flatMap (fun q => hitsReq q ls)) (hsort : SortedHits raw hs) :
    ∃ mem', coreRead disk hs mem = .ok mem' ∧ readHitsP disk lds hs mem = .ok mem' := by
  have hperm : (hs.map Hit.noX).Perm (qs.flatMap (fun q => hitsReq q ls)) := by
    rw [← hr]
    exact hsort.1.map _
  have hmem : ∀ x ∈ hs, x.noX ∈ qs.flatMap (fun q => hitsReq q ls) :=
    fun x hx => hperm.mem_iff.mp (List.mem_map_of_mem hx)
  have hnd : (hs.map Hit.noX).Nodup := hperm.nodup_iff.mpr (hits_nodup hl ok)
  have key : ∀ x ∈ hs, HitP lds x := by
    intro x hx
    obtain ⟨q, p, y, s, f⟩ := exists_from (hmem x hx)
    have h := (f.passable hl ok pa hin).1
    exact ⟨⟨h.shape.nd, h.shape.ds, h.shape.ms, h.shape.dz, h.shape.mz⟩, ⟨h.pos.es, h.pos.ct⟩, ⟨h.file.sub, h.file.es, h.file.lo⟩,
      h.mem, h.flat, h.scalar, h.inl⟩
  obtain ⟨mem', hm'⟩ := coreRead_ok (fun h hh => (key h hh).shape) (fun h hh => (key h hh).pos) (fun h hh => (key h hh).file)
    (fun h hh => (key h hh).mem.ok) (by
      intro g hg hlen h hh
      have hsub : g.Sublist hs := by
        have := sublist_flatten hg
        rwa [groups_flatten] at this
      obtain ⟨q, p, x, s, f⟩ := exists_from (hmem h (hsub.subset hh))
      by_cases h0 : h.d.ndim = 0
      · exfalso
        obtain ⟨h', hh', hne⟩ : ∃ h' ∈ g, h'.noX ≠ h.noX := by
          have hn2 : (g.map Hit.noX).Nodup := hnd.sublist (hsub.map _)
          match g, hlen, hn2 with
          | a :: b :: r, _, hn2 =>
            simp only [List.map_cons, List.nodup_cons, List.mem_cons] at hn2
            by_cases hah : a.noX = h.noX
            · refine ⟨b, by simp, ?_⟩
              intro hbh
              exact hn2.1 (Or.inl (hah.trans hbh.symm))
            · exact ⟨a, by simp, hah⟩
        have hsame := groups_same g hg h hh h' hh'
        obtain ⟨q', p', x', s', f'⟩ := exists_from (hmem h' (hsub.subset hh'))
        have hk : h.noX.key = h'.noX.key := by
          unfold Hit.key Hit.noX
          simp only
          rw [hsame.1, hsame.2]
        obtain ⟨rfl, rfl⟩ := f.same hl ok f' hk
        obtain ⟨_, _, _, d1, _⟩ := mem_hitOf f.mem
        have hq0 : q.d.ndim = 0 := by
          rw [← d1]
          exact h0
        have hqq := pa.once q f.hq hq0 q' f'.hq (f'.hd.symm.trans f.hd)
        subst hqq
        have hsg := pa.single q' f.hq hq0
        obtain ⟨i, hi, hp⟩ := mem_withOffs.mp f.hp
        obtain ⟨i', hi', hp'⟩ := mem_withOffs.mp f'.hp
        have : i = i' := by omega
        subst this
        rw [← hp] at hp'
        subst hp'
        exact hne (eq_of_hitOf f'.mem f.mem)
      · obtain ⟨n, n1, n2⟩ := (f.passable hl ok pa hin).2 h0
        exact ⟨n, n1, n2⟩) disk mem
  exact ⟨mem', hm', readHitsP_eq ho key hm'⟩

end

end Verif
