import Verif.Lemmas.ReadVal

namespace Verif

open Spec (AW inBox InBlk NoCommon Layout Stored ReadOK Repeats bufSize addrOf)

theorem getLast?_flatMap {α β : Type} (f : α → List β) : ∀ l : List α,
    (l.flatMap f).getLast? = (l.filterMap (fun x => (f x).getLast?)).getLast?
  | [] => rfl
  | x :: l => by
    rw [List.flatMap_cons, List.getLast?_append, getLast?_flatMap f l, List.filterMap_cons]
    cases hx : (f x).getLast? with
    | none => simp
    | some y =>
      simp only [List.getLast?_cons]
      cases h : (l.filterMap (fun x => (f x).getLast?)).getLast? <;> simp

theorem positions_eq (e : Nat) (bs : List Blk) (c : List Nat) :
    Spec.positions e bs c = (Spec.sels e bs).flatMap (fun s =>
      if inBox s.start s.count c = true then [s.doff + e * lin s.count (subs c s.start)] else []) := by
  unfold Spec.positions Spec.sels
  rw [List.flatMap_def]
  congr 1
  apply List.ext_getElem (by simp)
  intro i h1 h2
  simp only [List.getElem_mapIdx, List.getElem_map]
  by_cases h : InBlk (bs[i]'(by simpa using h1)) c
  · rw [if_pos h, if_pos (show inBox _ _ _ = true from h), idxIn_eq h]
  · rw [if_neg h, if_neg (show ¬ inBox _ _ _ = true from h)]

section
variable {ls : List (AW × Int)} {qs : List RReq}

theorem atAddr_req (ok : ReadOK ls qs) {q : RReq} (hq : q ∈ qs) {i : Nat} (hi : i < q.bs.length)
    {c : List Nat} (hc : InBlk q.bs[i] c) {k : Nat} (hk : k < q.d.esize) :
    atAddr (addrOf q i q.bs[i] c k) ((qs.flatMap (fun q => hitsReq q ls)).flatMap hitPairs) =
      (ls.filter (fun x => decide (x.1.did = q.did))).flatMap (fun x =>
        (Spec.positions x.1.d.esize x.1.bs c).map (fun p =>
          (x.2 + ((p + k : Nat) : Int), addrOf q i q.bs[i] c k))) := by
  have hp : (q.bs[i], Spec.dataOffset q.d.esize q.bs i) ∈ withOffs q.d.esize 0 q.bs :=
    mem_withOffs.mpr ⟨i, hi, rfl⟩
  have ha : inBuf q (q.bs[i], Spec.dataOffset q.d.esize q.bs i) (addrOf q i q.bs[i] c k) := by
    have := mul_add_lt (lin_lt hc) hk
    rw [← idxIn_eq hc] at this
    unfold inBuf addrOf Blk.size
    simp only
    omega
  rw [hits_pairs ok, atAddr_flatMap]
  rw [flatMap_unique (x := q) (A := fun q' => q'.xbuf ≤ addrOf q i q.bs[i] c k ∧ addrOf q i q.bs[i] c k < q'.xbuf + bufSize q') hq (inBuf_buf hp ha)
    (bufs_disj ok _)]
  · rw [atAddr_flatMap, flatMap_unique hp ha (blocks_disj q _)]
    · unfold pairsBlk
      rw [atAddr_flatMap]
      apply List.flatMap_congr
      intro x hx
      rw [List.mem_filter, decide_eq_true_eq] at hx
      rw [atAddr_flatMap, positions_eq, List.map_flatMap]
      apply List.flatMap_congr
      intro s hs
      have f := fit_of ok hq hp hx.1 hx.2 hs
      have he := (ok.dset x hx.1 q hq hx.2).2
      have := blkPairs_at (f := x.2 + s.doff) (m := q.xbuf + Spec.dataOffset q.d.esize q.bs i) f hc hk
      unfold addrOf
      rw [idxIn_eq hc]
      simp only at this ⊢
      rw [this, he]
      split
      · simp only [List.map_cons, List.map_nil, List.cons.injEq, Prod.mk.injEq, and_true]
        push_cast
        omega
      · rfl
    · intro p' hp' hn
      apply atAddr_nil
      intro u hu he
      exact hn (he ▸ pairsBlk_inBuf ok hq hp' hu)
  · intro q' hq' hn
    apply atAddr_nil
    rintro u hu he
    obtain ⟨p', hp', hu⟩ := List.mem_flatMap.mp hu
    have := inBuf_buf hp' (pairsBlk_inBuf ok hq' hp' hu)
    rw [he] at this
    exact hn this

theorem positions_length (e : Nat) (bs : List Blk) (c : List Nat) :
    (Spec.positions e bs c).length = bs.countP (fun b => decide (InBlk b c)) := by
  unfold Spec.positions
  rw [List.length_flatten]
  have h : (bs.mapIdx (fun i b => if InBlk b c then [Spec.dataOffset e bs i + e * Spec.idxIn b c] else [])).map
      List.length = bs.map (fun b => if InBlk b c then 1 else 0) := by
    apply List.ext_getElem (by simp)
    intro i h1 h2
    simp only [List.getElem_mapIdx, List.getElem_map]
    split <;> rfl
  rw [h]
  clear h
  induction bs with
  | nil => rfl
  | cons b bs ih =>
    rw [List.map_cons, List.sum_cons, ih, List.countP_cons]
    by_cases hb : InBlk b c
    · simp [hb]; omega
    · simp [hb]

/-- Number of search results for a requested cell. -/
theorem atAddr_count (ok : ReadOK ls qs) {q : RReq} (hq : q ∈ qs) {i : Nat} (hi : i < q.bs.length)
    {c : List Nat} (hc : InBlk q.bs[i] c) {k : Nat} (hk : k < q.d.esize) :
    (atAddr (addrOf q i q.bs[i] c k) ((qs.flatMap (fun q => hitsReq q ls)).flatMap hitPairs)).length =
      Spec.written (ls.map Prod.fst) q.did c := by
  rw [atAddr_req ok hq hi hc hk]
  unfold Spec.written
  rw [List.filter_map, List.flatMap_map]
  have heq : ls.filter ((fun w : AW => decide (w.did = q.did)) ∘ Prod.fst) =
      ls.filter (fun x => decide (x.1.did = q.did)) := rfl
  rw [heq]
  generalize ls.filter (fun x => decide (x.1.did = q.did)) = l
  induction l with
  | nil => rfl
  | cons x l ih =>
    rw [List.flatMap_cons, List.flatMap_cons, List.length_append, List.countP_append, ih, List.length_map,
      positions_length]

theorem once_shared (hl : Layout ls) (ok : ReadOK ls qs) (rp : Repeats (ls.map Prod.fst) qs) :
    OnceShared ((qs.flatMap (fun q => hitsReq q ls)).flatMap hitPairs) := by
  intro f a b h1 h2 hne
  obtain ⟨h, hh, h1⟩ := List.mem_flatMap.mp h1
  obtain ⟨h', hh', h2⟩ := List.mem_flatMap.mp h2
  obtain ⟨q, p, x, s, fr⟩ := exists_from hh
  obtain ⟨q', p', x', s', fr'⟩ := exists_from hh'
  obtain ⟨rfl, rfl, y, k, y1, y2, k1, k2, a1, a2⟩ := fr.shared hl ok fr' h1 h2 rfl
  obtain ⟨i, hi, rfl⟩ := mem_withOffs.mp fr.hp
  obtain ⟨i', hi', rfl⟩ := mem_withOffs.mp fr'.hp
  simp only at y1 y2 a1 a2
  have haddr : a = addrOf q i q.bs[i] y k := by
    rw [a1]; unfold addrOf; rw [idxIn_eq y1]; omega
  have haddr' : b = addrOf q' i' q'.bs[i'] y k := by
    rw [a2]; unfold addrOf; rw [idxIn_eq y2]; omega
  rw [haddr, atAddr_count ok fr.hq hi y1 k1]
  refine rp.once q fr.hq q' fr'.hq (fr.hd.symm.trans fr'.hd) i i' hi hi' ?_ y y1 y2
  intro he
  simp only [Prod.mk.injEq] at he
  obtain ⟨rfl, rfl⟩ := he
  exact hne (haddr.trans haddr'.symm)

theorem positions_lt {w : AW} (hw : w.Sized) {c : List Nat} {p : Nat}
    (hp : p ∈ Spec.positions w.d.esize w.bs c) {k : Nat} (hk : k < w.d.esize) : p + k < w.data.length := by
  rw [positions_eq] at hp
  obtain ⟨s, hs, hp⟩ := List.mem_flatMap.mp hp
  split at hp
  · rename_i hin
    rw [List.mem_singleton] at hp
    subst hp
    have := sels_end hs
    unfold AW.Sized at hw
    have := Nat.le_trans this hw.1
    have := mul_add_lt (lin_lt hin) hk
    omega
  · simp at hp

/-- Result of a read, byte by byte. -/
theorem read_value (hl : Layout ls) (ok : ReadOK ls qs) (rp : Repeats (ls.map Prod.fst) qs) {disk mem mem' : Mem} (hd : Stored disk ls)
    {raw hs : List Hit} (hr : raw.map Hit.noX = qs.flatMap (fun q => hitsReq q ls))
    (hsort : SortedHits raw hs) (h : coreRead disk hs mem = .ok mem') :
    (∀ q ∈ qs, ∀ i, ∀ hi : i < q.bs.length, ∀ c, InBlk q.bs[i] c → ∀ k, k < q.d.esize →
      mem' (addrOf q i q.bs[i] c k) = (Spec.lastByte (ls.map Prod.fst) q.did c k).getD
        (mem (addrOf q i q.bs[i] c k))) ∧
    (∀ a, (∀ q ∈ qs, ¬ (q.xbuf ≤ a ∧ a < q.xbuf + bufSize q)) → mem' a = mem a) := by
  constructor
  · intro q hq i hi c hc k hk
    rw [read_at hl ok rp (once_shared hl ok rp) hr hsort h, atAddr_req ok hq hi hc hk, getLast?_flatMap]
    congr 1
    unfold Spec.lastByte
    rw [List.filter_map, List.filterMap_map]
    have hfun : ∀ x ∈ ls.filter (fun x => decide (x.1.did = q.did)),
        ((fun w => Spec.cellByte w c k) ∘ Prod.fst) x =
          (((Spec.positions x.1.d.esize x.1.bs c).map (fun p =>
            (x.2 + ((p + k : Nat) : Int), addrOf q i q.bs[i] c k))).getLast?).map (fun p => disk p.1.toNat) := by
      intro x hx
      rw [List.mem_filter, decide_eq_true_eq] at hx
      simp only [Function.comp, Spec.cellByte, List.getLast?_map, Option.map_map]
      cases hp : (Spec.positions x.1.d.esize x.1.bs c).getLast? with
      | none => rfl
      | some p =>
        have hlt := positions_lt (hl.sized x hx.1) (List.mem_of_getLast? hp)
          (k := k) (by rw [(ok.dset x hx.1 q hq hx.2).2]; exact hk)
        simp only [Option.bind_some, Option.map_some]
        rw [List.getElem?_eq_getElem hlt, ← hd x hx.1 _ hlt]
        have := hl.lo x hx.1
        congr 2
        simp only
        omega
    have heq : ls.filter ((fun w : AW => decide (w.did = q.did)) ∘ Prod.fst) =
        ls.filter (fun x => decide (x.1.did = q.did)) := rfl
    rw [heq, List.filterMap_congr hfun]
    rw [← List.map_filterMap, List.getLast?_map]
  · intro a ha
    rw [read_at hl ok rp (once_shared hl ok rp) hr hsort h, atAddr_nil]
    · rfl
    · intro u hu he
      rw [hits_pairs ok] at hu
      obtain ⟨q, hq, hu⟩ := List.mem_flatMap.mp hu
      obtain ⟨p, hp, hu⟩ := List.mem_flatMap.mp hu
      have := inBuf_buf hp (pairsBlk_inBuf ok hq hp hu)
      rw [he] at this
      exact ha q hq this

end

end Verif
