import Verif.Lemmas.ReadAll
import Verif.Lemmas.Serves

namespace Verif

open Spec (AW inBox InBlk NoCommon Layout Stored ReadOK Repeats bufSize addrOf)

/-- The search result writes the address. -/
def covers (a : Nat) (h : Hit) : Bool := !(atAddr a (hitPairs h)).isEmpty

section
variable {ls : List (AW × Int)} {qs : List RReq}

/-- Address range of a requested block. -/
def inBuf (q : RReq) (p : Blk × Nat) (a : Nat) : Prop :=
  q.xbuf + p.2 ≤ a ∧ a < q.xbuf + p.2 + q.d.esize * p.1.size

theorem inBuf_buf {q : RReq} {p : Blk × Nat} (hp : p ∈ withOffs q.d.esize 0 q.bs) {a : Nat}
    (h : inBuf q p a) : q.xbuf ≤ a ∧ a < q.xbuf + bufSize q := by
  obtain ⟨i, hi, rfl⟩ := mem_withOffs.mp hp
  have := dataOffset_le (e := q.d.esize) hi (Nat.le_refl _)
  unfold inBuf at h
  unfold bufSize
  simp only at h
  omega

theorem pairsBlk_inBuf (ok : ReadOK ls qs) {q : RReq} (hq : q ∈ qs) {p : Blk × Nat}
    (hp : p ∈ withOffs q.d.esize 0 q.bs) {u : Int × Nat} (hu : u ∈ pairsBlk q p ls) : inBuf q p u.2 := by
  obtain ⟨x, hx, hd, s, hs, h⟩ := mem_pairsBlk hu
  have r := blkPairs_range (fit_of ok hq hp hx hd hs) h
  exact ⟨r.2.2.1, r.2.2.2⟩

theorem covers_inBuf (ok : ReadOK ls qs) {q : RReq} (hq : q ∈ qs) {p : Blk × Nat}
    (hp : p ∈ withOffs q.d.esize 0 q.bs) {h : Hit} (hh : h ∈ hitsBlk q p ls) {a : Nat}
    (hc : covers a h = true) : inBuf q p a := by
  unfold covers at hc
  simp only [Bool.not_eq_true', List.isEmpty_eq_false_iff_exists_mem] at hc
  obtain ⟨u, hu⟩ := hc
  unfold atAddr at hu
  rw [List.mem_filter, decide_eq_true_eq] at hu
  have := pairsBlk_inBuf ok hq hp (u := u)
    (by rw [← hitsBlk_pairs ok hq hp]; exact List.mem_flatMap.mpr ⟨h, hh, hu.1⟩)
  rwa [hu.2] at this

theorem mem_hitsBlk {q : RReq} {p : Blk × Nat} {h : Hit} (hh : h ∈ hitsBlk q p ls) :
    ∃ x ∈ ls, x.1.did = q.did ∧ ∃ s ∈ Spec.sels x.1.d.esize x.1.bs,
      h ∈ hitOf q p.1 p.2 x.2 x.1.data.length s := by
  unfold hitsBlk at hh
  obtain ⟨x, hx, h⟩ := List.mem_flatMap.mp hh
  rw [List.mem_filter, decide_eq_true_eq] at hx
  obtain ⟨s, hs, h⟩ := List.mem_flatMap.mp h
  exact ⟨x, hx.1, hx.2, s, hs, h⟩

/-- A written block with a search result has data. -/
theorem hitOf_size {q : RReq} {rb : Blk} {soff : Nat} {foff fsize : Int} {s : MSel}
    (h : Fit q.d.ndim s rb) {x : Hit} (hx : x ∈ hitOf q rb soff foff fsize s) : 0 < prod s.count := by
  unfold hitOf at hx
  cases hi : intersect s.start s.count rb.start rb.count with
  | none => simp [hi] at hx
  | some o =>
    obtain ⟨os, oc⟩ := o
    have h0 := intersect_nonempty hi (by rw [h.s0, h.s1]) (by rw [h.s0, h.r0]) (by rw [h.s0, h.r1])
    obtain ⟨_, _, i3, _⟩ := intersect_some (by rw [h.s0, h.s1]) (by rw [h.s0, h.r0])
      (by rw [h.s0, h.r1]) hi
    have := lin_lt ((i3 os).mp h0).1
    omega

theorem key_hitOf {q : RReq} {rb : Blk} {soff : Nat} {foff fsize : Int} {s : MSel}
    (h : Fit q.d.ndim s rb) {x : Hit} (hx : x ∈ hitOf q rb soff foff fsize s) : x.key = foff + s.doff := by
  obtain ⟨_, _, h1, h2, _⟩ := hitOf_shape h hx
  unfold Hit.key
  rw [h1, h2]

/-- Search results of one requested block come in increasing file order. -/
theorem hitsBlk_sorted (hl : Layout ls) (ok : ReadOK ls qs) {q : RReq} (hq : q ∈ qs) {p : Blk × Nat}
    (hp : p ∈ withOffs q.d.esize 0 q.bs) : (hitsBlk q p ls).Pairwise (fun a b => a.key < b.key) := by
  have hes := ok.es q hq
  unfold hitsBlk
  rw [List.pairwise_flatMap]
  constructor
  · intro x hx
    rw [List.mem_filter, decide_eq_true_eq] at hx
    rw [List.pairwise_flatMap]
    constructor
    · intro s _
      unfold hitOf
      cases intersect s.start s.count p.1.start p.1.count with
      | none => simp
      | some o => obtain ⟨os, oc⟩ := o; simp
    · refine (List.Pairwise.and_mem.mp (sels_pairwise _ _)).imp ?_
      rintro s s' ⟨hs, hs', h⟩ u hu v hv
      have f := fit_of ok hq hp hx.1 hx.2 hs
      have f' := fit_of ok hq hp hx.1 hx.2 hs'
      rw [key_hitOf f hu, key_hitOf f' hv]
      have := Nat.mul_pos hes (hitOf_size f hu)
      rw [(ok.dset x hx.1 q hq hx.2).2] at h
      omega
  · refine (List.Pairwise.and_mem.mp (hl.order.filter _)).imp ?_
    rintro x x' ⟨hx, hx', h⟩ u hu v hv
    rw [List.mem_filter, decide_eq_true_eq] at hx hx'
    obtain ⟨s, hs, hu⟩ := List.mem_flatMap.mp hu
    obtain ⟨s', hs', hv⟩ := List.mem_flatMap.mp hv
    have f := fit_of ok hq hp hx.1 hx.2 hs
    have f' := fit_of ok hq hp hx'.1 hx'.2 hs'
    rw [key_hitOf f hu, key_hitOf f' hv]
    have e1 := sels_end hs
    have z := hl.sized x hx.1
    unfold AW.Sized at z
    have e1 := Nat.le_trans e1 z.1
    rw [(ok.dset x hx.1 q hq hx.2).2] at e1
    have := Nat.mul_pos hes (hitOf_size f hu)
    omega

theorem bufs_disj (ok : ReadOK ls qs) (a : Nat) :
    qs.Pairwise (fun q q' => ¬ ((q.xbuf ≤ a ∧ a < q.xbuf + bufSize q) ∧
      (q'.xbuf ≤ a ∧ a < q'.xbuf + bufSize q'))) := by
  refine ok.bufs.imp ?_
  intro q q' h hh
  omega

theorem blocks_disj (q : RReq) (a : Nat) :
    (withOffs q.d.esize 0 q.bs).Pairwise (fun p p' => ¬ (inBuf q p a ∧ inBuf q p' a)) := by
  refine (withOffs_pairwise _ _).imp ?_
  intro p p' h hh
  unfold inBuf at hh
  omega

/-- Search results that target the same address come in increasing file order. -/
theorem covers_sorted (hl : Layout ls) (ok : ReadOK ls qs) (a : Nat) :
    ((qs.flatMap (fun q => hitsReq q ls)).filter (covers a)).Pairwise (fun x y => x.key < y.key) := by
  rw [List.filter_flatMap, List.pairwise_flatMap]
  have inb : ∀ q ∈ qs, ∀ x ∈ (hitsReq q ls).filter (covers a), q.xbuf ≤ a ∧ a < q.xbuf + bufSize q := by
    intro q hq x hx
    rw [List.mem_filter] at hx
    obtain ⟨p, hp, hx1⟩ := List.mem_flatMap.mp hx.1
    exact inBuf_buf hp (covers_inBuf ok hq hp hx1 hx.2)
  constructor
  · intro q hq
    unfold hitsReq
    rw [List.filter_flatMap, List.pairwise_flatMap]
    constructor
    · intro p hp
      exact (hitsBlk_sorted hl ok hq hp).filter _
    · refine (List.Pairwise.and_mem.mp (blocks_disj q a)).imp ?_
      rintro p p' ⟨hp, hp', h⟩ x hx y hy
      rw [List.mem_filter] at hx hy
      exact absurd ⟨covers_inBuf ok hq hp hx.1 hx.2, covers_inBuf ok hq hp' hy.1 hy.2⟩ h
  · refine (List.Pairwise.and_mem.mp (bufs_disj ok a)).imp ?_
    rintro q q' ⟨hq, hq', h⟩ x hx y hy
    exact absurd ⟨inb q hq x hx, inb q' hq' y hy⟩ h

theorem hits_shape (ok : ReadOK ls qs) {h : Hit} (hh : h ∈ qs.flatMap (fun q => hitsReq q ls)) :
    HitShape h ∧ HitPos h := by
  obtain ⟨q, hq, hh⟩ := List.mem_flatMap.mp hh
  obtain ⟨p, hp, hh⟩ := List.mem_flatMap.mp hh
  obtain ⟨x, hx, hd, s, hs, h1⟩ := mem_hitsBlk hh
  obtain ⟨a, b, _⟩ := hitOf_shape (fit_of ok hq hp hx hd hs) h1
  exact ⟨a, b (ok.es q hq)⟩

theorem atAddr_filter (a : Nat) (l : List Hit) :
    atAddr a (l.flatMap hitPairs) = (l.filter (covers a)).flatMap (fun h => atAddr a (hitPairs h)) := by
  rw [atAddr_flatMap]
  induction l with
  | nil => rfl
  | cons h l ih =>
    rw [List.flatMap_cons, ih]
    by_cases hc : covers a h = true
    · rw [List.filter_cons_of_pos hc, List.flatMap_cons]
    · rw [List.filter_cons_of_neg hc]
      have : atAddr a (hitPairs h) = [] := by
        simpa [covers] using hc
      rw [this, List.nil_append]

/-- One search result targets an address at most once. -/
theorem hit_once (ok : ReadOK ls qs) {h : Hit} (hh : h ∈ qs.flatMap (fun q => hitsReq q ls)) (a : Nat) :
    (atAddr a (hitPairs h)).length ≤ 1 := by
  obtain ⟨q, hq, hh⟩ := List.mem_flatMap.mp hh
  obtain ⟨p, hp, hh⟩ := List.mem_flatMap.mp hh
  obtain ⟨x, hx, hd, s, hs, h1⟩ := mem_hitsBlk hh
  have f := fit_of ok hq hp hx hd hs
  have h2 : hitPairs h = blkPairs q.d.esize (x.2 + s.doff) (q.xbuf + p.2) s p.1 := by
    rw [← hitOf_pairs (fsize := x.1.data.length) f]
    unfold hitOf at h1 ⊢
    cases hi : intersect s.start s.count p.1.start p.1.count with
    | none => simp [hi] at h1
    | some o =>
      obtain ⟨os, oc⟩ := o
      simp only [hi, List.mem_singleton] at h1
      subst h1
      simp
  rw [h2]
  by_cases hne : atAddr a (blkPairs q.d.esize (x.2 + s.doff) (q.xbuf + p.2) s p.1) = []
  · simp [hne]
  · obtain ⟨u, hu⟩ := List.exists_mem_of_ne_nil _ hne
    unfold atAddr at hu
    rw [List.mem_filter, decide_eq_true_eq] at hu
    obtain ⟨y, k, a1, a2, a3, rfl⟩ := mem_blkPairs f hu.1
    rw [← hu.2]
    simp only
    rw [← Nat.add_assoc, blkPairs_at f a2 a3]
    split <;> simp

theorem mem_hitOf {q : RReq} {rb : Blk} {soff : Nat} {foff fsize : Int} {s : MSel} {h : Hit}
    (hh : h ∈ hitOf q rb soff foff fsize s) : ∃ os oc,
      intersect s.start s.count rb.start rb.count = some (os, oc) ∧ h.d = q.d ∧ h.dsize = s.count ∧
      h.dstart = subs os s.start ∧ h.msize = rb.count ∧ h.mstart = subs os rb.start ∧ h.count = oc ∧
      h.doff = s.doff ∧ h.foff = foff := by
  unfold hitOf at hh
  cases hi : intersect s.start s.count rb.start rb.count with
  | none => simp [hi] at hh
  | some o =>
    obtain ⟨os, oc⟩ := o
    simp only [hi, List.mem_singleton] at hh
    subst hh
    exact ⟨os, oc, rfl, rfl, rfl, rfl, rfl, rfl, rfl, rfl, rfl⟩

/-- Where a search result comes from. -/
structure From (ls : List (AW × Int)) (qs : List RReq) (h : Hit) (q : RReq) (p : Blk × Nat)
    (x : AW × Int) (s : MSel) : Prop where
  hq : q ∈ qs
  hp : p ∈ withOffs q.d.esize 0 q.bs
  hx : x ∈ ls
  hd : x.1.did = q.did
  hs : s ∈ Spec.sels x.1.d.esize x.1.bs
  mem : h ∈ hitOf q p.1 p.2 x.2 x.1.data.length s

theorem exists_from {h : Hit} (hh : h ∈ qs.flatMap (fun q => hitsReq q ls)) :
    ∃ q p x s, From ls qs h q p x s := by
  obtain ⟨q, hq, hh⟩ := List.mem_flatMap.mp hh
  obtain ⟨p, hp, hh⟩ := List.mem_flatMap.mp hh
  obtain ⟨x, hx, hd, s, hs, h1⟩ := mem_hitsBlk hh
  exact ⟨q, p, x, s, hq, hp, hx, hd, hs, h1⟩

theorem From.fit (ok : ReadOK ls qs) {h q p x s} (f : From ls qs h q p x s) : Fit q.d.ndim s p.1 :=
  fit_of ok f.hq f.hp f.hx f.hd f.hs

/-- File range of the data block of a search result. -/
theorem From.same (hl : Layout ls) (ok : ReadOK ls qs) {h q p x s h' q' p' x' s'}
    (f : From ls qs h q p x s) (f' : From ls qs h' q' p' x' s') (hk : h.key = h'.key) :
    x = x' ∧ s = s' := by
  have e := (ok.dset x f.hx q f.hq f.hd).2
  have e' := (ok.dset x' f'.hx q' f'.hq f'.hd).2
  have k := key_hitOf (f.fit ok) f.mem
  have k' := key_hitOf (f'.fit ok) f'.mem
  have z := Nat.mul_pos (ok.es q f.hq) (hitOf_size (f.fit ok) f.mem)
  have z' := Nat.mul_pos (ok.es q' f'.hq) (hitOf_size (f'.fit ok) f'.mem)
  rw [← e] at z
  rw [← e'] at z'
  exact file_unique hl f.hx f'.hx f.hs f'.hs (f := h.key) (by omega) (by omega) (by omega) (by omega)

theorem From.blk (ok : ReadOK ls qs) {h q p x s} (f : From ls qs h q p x s) :
    hitPairs h = blkPairs q.d.esize (x.2 + s.doff) (q.xbuf + p.2) s p.1 := by
  rw [← hitOf_pairs (fsize := x.1.data.length) (f.fit ok)]
  have h1 := f.mem
  unfold hitOf at h1 ⊢
  cases hi : intersect s.start s.count p.1.start p.1.count with
  | none => simp [hi] at h1
  | some o =>
    obtain ⟨os, oc⟩ := o
    simp only [hi, List.mem_singleton] at h1
    subst h1
    simp

/-- A file byte wanted by two search results belongs to one element that both requested blocks contain. -/
theorem From.shared (hl : Layout ls) (ok : ReadOK ls qs) {h q p x s h' q' p' x' s'}
    (f : From ls qs h q p x s) (f' : From ls qs h' q' p' x' s') {u v : Int × Nat} (hu : u ∈ hitPairs h)
    (hv : v ∈ hitPairs h') (he : u.1 = v.1) :
    x = x' ∧ s = s' ∧ ∃ y k, InBlk p.1 y ∧ InBlk p'.1 y ∧ k < q.d.esize ∧ k < q'.d.esize ∧
      u.2 = q.xbuf + p.2 + (q.d.esize * lin p.1.count (subs y p.1.start) + k) ∧
      v.2 = q'.xbuf + p'.2 + (q'.d.esize * lin p'.1.count (subs y p'.1.start) + k) := by
  rw [f.blk ok] at hu
  rw [f'.blk ok] at hv
  have r := blkPairs_range (f.fit ok) hu
  have r' := blkPairs_range (f'.fit ok) hv
  have e := (ok.dset x f.hx q f.hq f.hd).2
  have e' := (ok.dset x' f'.hx q' f'.hq f'.hd).2
  obtain ⟨rfl, rfl⟩ := file_unique hl f.hx f'.hx f.hs f'.hs (f := u.1) r.1 (by rw [e]; exact r.2.1)
    (by rw [he]; exact r'.1) (by rw [he, e']; exact r'.2.1)
  obtain ⟨y, k, a1, a2, a3, rfl⟩ := mem_blkPairs (f.fit ok) hu
  obtain ⟨y', k', b1, b2, b3, rfl⟩ := mem_blkPairs (f'.fit ok) hv
  simp only at he
  have ee : q.d.esize = q'.d.esize := by rw [← e, ← e']
  have hy := mul_add_inj (i := lin s.count (subs y s.start)) (j := lin s.count (subs y' s.start)) a3
    (by rw [ee]; exact b3) (by rw [ee] at he ⊢; omega)
  have hyy := lin_inj a1 b1 hy.1
  obtain ⟨_, rfl⟩ := hy
  subst hyy
  exact ⟨rfl, rfl, y, k, a2, b2, a3, b3, rfl, rfl⟩

/-- Search results take the same elements or have no file byte in common. -/
theorem hits_cases (hl : Layout ls) (ok : ReadOK ls qs) {log : List AW} (rp : Repeats log qs) {h h' : Hit}
    (hh : h ∈ qs.flatMap (fun q => hitsReq q ls)) (hh' : h' ∈ qs.flatMap (fun q => hitsReq q ls)) :
    SameFile h h' ∨ FileDisj h h' := by
  obtain ⟨q, p, x, s, f⟩ := exists_from hh
  obtain ⟨q', p', x', s', f'⟩ := exists_from hh'
  by_cases hd : FileDisj h h'
  · exact Or.inr hd
  · left
    unfold FileDisj at hd
    push Not at hd
    obtain ⟨u, hu, v, hv, he⟩ := hd
    obtain ⟨rfl, rfl, y, k, y1, y2, _⟩ := f.shared hl ok f' hu hv he
    rcases rp.same q f.hq q' f'.hq (f.hd.symm.trans f'.hd) _ (withOffs_mem f.hp) _ (withOffs_mem f'.hp) with hb | hb
    · obtain ⟨os, oc, hi, h1, h2, h3, h4, h5, h6, h7, h8⟩ := mem_hitOf f.mem
      obtain ⟨os', oc', hi', h1', h2', h3', h4', h5', h6', h7', h8'⟩ := mem_hitOf f'.mem
      rw [← hb, hi] at hi'
      simp only [Option.some.injEq, Prod.mk.injEq] at hi'
      obtain ⟨rfl, rfl⟩ := hi'
      have e := (ok.dset x f.hx q f.hq f.hd).2
      have e' := (ok.dset x f'.hx q' f'.hq f'.hd).2
      refine ⟨by unfold Hit.key; rw [h7, h8, h7', h8'], by rw [h1, h1', ← e, ← e'], by rw [h2, h2'],
        by rw [h3, h3'], by rw [h6, h6']⟩
    · exact absurd ⟨y1, y2⟩ (hb y)

theorem hit_nodup (ok : ReadOK ls qs) {h : Hit} (hh : h ∈ qs.flatMap (fun q => hitsReq q ls)) :
    ((hitPairs h).map Prod.fst).Nodup := by
  obtain ⟨q, p, x, s, f⟩ := exists_from hh
  rw [f.blk ok]
  exact blkPairs_nodup (f.fit ok)

theorem noX_pairs (h : Hit) : hitPairs h.noX = hitPairs h := rfl

theorem map_noX_pairs (l : List Hit) : (l.map Hit.noX).flatMap hitPairs = l.flatMap hitPairs := by
  rw [List.flatMap_map]
  rfl

theorem le_of_hitLt {a b : Hit} (h : hitLt b a = false) : a.key ≤ b.key := by
  unfold hitLt at h
  split at h
  · simp at h
  · omega

theorem sublist_flatten {α : Type} {g : List α} {gs : List (List α)} (h : g ∈ gs) : g.Sublist gs.flatten :=
  List.sublist_flatten_of_mem h

/-- The byte stored at an address by a read. -/
theorem read_at (hl : Layout ls) (ok : ReadOK ls qs) {log : List AW} (rp : Repeats log qs)
    (ho : OnceShared ((qs.flatMap (fun q => hitsReq q ls)).flatMap hitPairs))
    {disk mem mem' : Mem} {raw hs : List Hit}
    (hr : raw.map Hit.noX = qs.flatMap (fun q => hitsReq q ls)) (hsort : SortedHits raw hs)
    (h : coreRead disk hs mem = .ok mem') (a : Nat) :
    mem' a = ((atAddr a ((qs.flatMap (fun q => hitsReq q ls)).flatMap hitPairs)).getLast?.map
      (fun p => disk p.1.toNat)).getD (mem a) := by
  have hperm : (hs.map Hit.noX).Perm (qs.flatMap (fun q => hitsReq q ls)) := by
    rw [← hr]; exact hsort.1.map _
  have hmem : ∀ x ∈ hs, x.noX ∈ qs.flatMap (fun q => hitsReq q ls) :=
    fun x hx => hperm.mem_iff.mp (List.mem_map_of_mem hx)
  have hstrict := covers_sorted hl ok a
  -- covering results, in both orders
  have hfil : ((hs.map Hit.noX).filter (covers a)) =
      ((qs.flatMap (fun q => hitsReq q ls)).filter (covers a)) := by
    have hp2 := hperm.filter (covers a)
    refine List.Perm.eq_of_pairwise (le := fun x y : Hit => x.key ≤ y.key) ?_ ?_ ?_ hp2
    · intro x y hx hy h1 h2
      have hx' := hp2.mem_iff.mp hx
      rcases pairwise_mem hstrict hx' hy with h | h | h
      · exact h
      · omega
      · omega
    · apply List.Pairwise.filter
      rw [List.pairwise_map]
      exact hsort.2.imp (fun h => le_of_hitLt h)
    · exact hstrict.imp (fun h => Int.le_of_lt h)
  have hval := coreRead_value (disk := disk) (mem := mem) (mem' := mem') (hs := hs)
    (fun x hx => by
      have := (hits_shape ok (hmem x hx)).1
      exact ⟨this.nd, this.ds, this.ms, this.dz, this.mz⟩)
    (fun x hx => by
      have := (hits_shape ok (hmem x hx)).2
      exact ⟨this.es, this.ct⟩)
    (fun x hx => by rw [← noX_pairs]; exact hit_nodup ok (hmem x hx))
    (by
      intro g hg x hx y hy
      have hin : ∀ z ∈ g, z ∈ hs := fun z hz => by
        rw [← groups_flatten hs]; exact List.mem_flatten.mpr ⟨g, hg, hz⟩
      rcases hits_cases hl ok rp (hmem x (hin x hx)) (hmem y (hin y hy)) with h | h
      · exact Or.inl ⟨h.key, h.es, h.dsize, h.dstart, h.count⟩
      · exact Or.inr h)
    (by
      intro g hg a
      have hsub : g.Sublist hs := by
        have := sublist_flatten hg
        rwa [groups_flatten] at this
      have hst := covers_sorted hl ok a
      rw [atAddr_filter]
      have hnd : ((hs.filter (covers a)).map Hit.key).Nodup := by
        have h1 : (((qs.flatMap (fun q => hitsReq q ls)).filter (covers a)).map Hit.key).Nodup := by
          rw [List.Nodup, List.pairwise_map]
          exact hst.imp (fun h => Int.ne_of_lt h)
        have h2 := ((hperm.filter (covers a)).map Hit.key).nodup_iff.mpr h1
        have h3 : ((hs.map Hit.noX).filter (covers a)) = (hs.filter (covers a)).map Hit.noX := by
          rw [List.filter_map]; rfl
        rw [h3, List.map_map] at h2
        exact h2
      have hgn : ((g.filter (covers a)).map Hit.key).Nodup :=
        hnd.sublist ((hsub.filter _).map _)
      have hsame := groups_same g hg
      match hgf : g.filter (covers a) with
      | [] => simp
      | [x] =>
        have hx : x ∈ g := (List.mem_filter.mp (by rw [hgf]; simp : x ∈ g.filter (covers a))).1
        simp only [List.flatMap_cons, List.flatMap_nil, List.append_nil]
        exact hit_once ok (hmem x (hsub.subset hx)) a
      | x :: y :: r =>
        exfalso
        have hx : x ∈ g := (List.mem_filter.mp (by rw [hgf]; simp : x ∈ g.filter (covers a))).1
        have hy : y ∈ g := (List.mem_filter.mp (by rw [hgf]; simp : y ∈ g.filter (covers a))).1
        have hk := hsame x hx y hy
        rw [hgf] at hgn
        simp only [List.map_cons, List.nodup_cons, List.mem_cons] at hgn
        apply hgn.1
        left
        unfold Hit.key
        rw [hk.1, hk.2])
    (by
      rw [← map_noX_pairs]
      have hp3 := hperm.flatMap_right hitPairs
      intro f a b h1 h2 hne
      have := ho f a b (hp3.mem_iff.mp h1) (hp3.mem_iff.mp h2) hne
      unfold atAddr at this ⊢
      rwa [(hp3.filter _).length_eq])
    h a
  rw [hval, ← map_noX_pairs hs, atAddr_filter, hfil, ← atAddr_filter]

end

end Verif
