import Verif.Lemmas.Trim

/-
Reading pieces and copying: every address receives the byte of the last search result that targets it,
also when a file byte is wanted at several addresses.
-/

namespace Verif

/-- Pieces and copies serve a list of (file byte, address) pairs. -/
structure Serves (r : List Seg × List Copy) (P : List (Int × Nat)) : Prop where
  sub : ∀ u ∈ r.1.flatMap Seg.pairs, u ∈ P
  direct : ∀ a, a ∉ r.2.flatMap Copy.dsts → atAddr a (r.1.flatMap Seg.pairs) = atAddr a P
  nodup : (r.2.flatMap Copy.dsts).Nodup
  copy : ∀ c ∈ r.2, ∀ j < c.size, ∃ (b : Nat) (f : Int), c.src + (j : Nat) = (b : Int) ∧
    (f, b) ∈ r.1.flatMap Seg.pairs ∧ (f, c.dst + j) ∈ P ∧ b ∉ r.2.flatMap Copy.dsts

/-- An address that shares a file byte with another one is targeted once. -/
def OnceShared (P : List (Int × Nat)) : Prop :=
  ∀ f a b, (f, a) ∈ P → (f, b) ∈ P → a ≠ b → (atAddr a P).length ≤ 1

theorem mem_atAddr {a : Nat} {P : List (Int × Nat)} {u : Int × Nat} : u ∈ atAddr a P ↔ u ∈ P ∧ u.2 = a := by
  unfold atAddr
  rw [List.mem_filter, decide_eq_true_eq]

theorem atAddr_length (a : Nat) (P : List (Int × Nat)) : (atAddr a P).length = (P.map Prod.snd).count a := by
  unfold atAddr
  rw [List.count, List.countP_map, List.countP_eq_length_filter]
  congr 2

theorem nodup_of_atAddr {P : List (Int × Nat)} (h : ∀ a, (atAddr a P).length ≤ 1) : (P.map Prod.snd).Nodup := by
  rw [List.nodup_iff_count_le_one]
  intro a
  rw [← atAddr_length]
  exact h a

theorem mem_copies {cs : List Copy} {a : Nat} : a ∈ cs.flatMap Copy.dsts ↔ ∃ c ∈ cs, ∃ j < c.size, c.dst + j = a := by
  rw [List.mem_flatMap]
  constructor
  · rintro ⟨c, hc, h⟩; exact ⟨c, hc, mem_dsts.mp h⟩
  · rintro ⟨c, hc, h⟩; exact ⟨c, hc, mem_dsts.mpr h⟩

/-- Pieces without copies that hold the same pairs. -/
theorem serves_plain {s : List Seg} {P : List (Int × Nat)} (hp : (s.flatMap Seg.pairs).Perm P)
    (ha : ∀ a, (atAddr a P).length ≤ 1) : Serves (s, []) P := by
  refine ⟨fun u hu => hp.mem_iff.mp hu, ?_, by simp, by simp⟩
  intro a _
  exact perm_short (hp.filter _) (ha a)

theorem serves_trim {l : List Seg} (h : Mono l) {P : List (Int × Nat)} (hp : (l.flatMap Seg.pairs).Perm P)
    (ha : ∀ a, (atAddr a P).length ≤ 1) : Serves (trim l) P := by
  obtain ⟨_, _, t3, t4, t5⟩ := trim_spec h
  have hperm := t3.trans (hp.map Prod.snd)
  have hnd : (((trim l).1.flatMap Seg.pairs).map Prod.snd ++ (trim l).2.flatMap Copy.dsts).Nodup :=
    hperm.nodup_iff.mpr (nodup_of_atAddr ha)
  have hsub : ∀ u ∈ (trim l).1.flatMap Seg.pairs, u ∈ P := fun u hu => hp.mem_iff.mp (t4 u hu)
  rw [List.nodup_append] at hnd
  refine ⟨hsub, ?_, hnd.2.1, ?_⟩
  · intro a hna
    have hc := hperm.count_eq a
    rw [List.count_append, List.count_eq_zero_of_not_mem hna, Nat.add_zero, ← atAddr_length, ← atAddr_length] at hc
    have hle := ha a
    match hP : atAddr a P, hS : atAddr a ((trim l).1.flatMap Seg.pairs) with
    | [], [] => rfl
    | [], _ :: _ => rw [hP, hS] at hc; simp at hc
    | [x], [] => rw [hP, hS] at hc; simp at hc
    | _ :: _ :: _, _ => rw [hP] at hle; simp at hle
    | [x], _ :: _ :: _ => rw [hP, hS] at hc; simp at hc
    | [x], [y] =>
      have hy : y ∈ atAddr a ((trim l).1.flatMap Seg.pairs) := by rw [hS]; simp
      rw [mem_atAddr] at hy
      have : y ∈ atAddr a P := mem_atAddr.mpr ⟨hsub y hy.1, hy.2⟩
      rw [hP] at this
      rw [List.mem_singleton.mp this]
  · intro c hc j hj
    obtain ⟨b, f, b1, b2, b3⟩ := t5 c hc j hj
    refine ⟨b, f, b1, b2, hp.mem_iff.mp b3, ?_⟩
    intro hb
    exact hnd.2.2 b (List.mem_map.mpr ⟨(f, b), b2, rfl⟩) b hb rfl

theorem atAddr_pos {a : Nat} {f : Int} {P : List (Int × Nat)} (h : (f, a) ∈ P) : 0 < (atAddr a P).length :=
  List.length_pos_of_mem (mem_atAddr.mpr ⟨h, rfl⟩)

theorem Serves.dst {r : List Seg × List Copy} {P : List (Int × Nat)} (h : Serves r P) {a : Nat}
    (ha : a ∈ r.2.flatMap Copy.dsts) : ∃ (b : Nat) (f : Int), (f, a) ∈ P ∧ (f, b) ∈ P ∧ a ≠ b := by
  obtain ⟨c, hc, j, hj, rfl⟩ := mem_copies.mp ha
  obtain ⟨b, f, _, b2, b3, b4⟩ := h.copy c hc j hj
  refine ⟨b, f, b3, h.sub _ b2, ?_⟩
  intro he
  rw [he] at ha
  exact b4 ha

theorem onceShared_right {P Q : List (Int × Nat)} (h : OnceShared (P ++ Q)) : OnceShared Q := by
  intro f a b h1 h2 hne
  have := h f a b (List.mem_append_right _ h1) (List.mem_append_right _ h2) hne
  rw [atAddr_append, List.length_append] at this
  omega

theorem Serves.append {r r' : List Seg × List Copy} {P Q : List (Int × Nat)} (h : Serves r P) (h' : Serves r' Q)
    (ho : OnceShared (P ++ Q)) : Serves (r.1 ++ r'.1, r.2 ++ r'.2) (P ++ Q) := by
  -- an address targeted in both parts shares no file byte
  have both : ∀ {a b : Nat} {f f' g : Int}, (f, a) ∈ P → (f', a) ∈ Q → (g, a) ∈ P ++ Q → (g, b) ∈ P ++ Q → a = b := by
    intro a b f f' g h1 h2 h3 h4
    by_contra hne
    have := ho g a b h3 h4 hne
    rw [atAddr_append, List.length_append] at this
    have := atAddr_pos h1
    have := atAddr_pos h2
    omega
  refine ⟨?_, ?_, ?_, ?_⟩
  · intro u hu
    simp only [List.flatMap_append, List.mem_append] at hu ⊢
    exact hu.imp (h.sub u) (h'.sub u)
  · intro a hna
    simp only [List.flatMap_append, List.mem_append, not_or] at hna ⊢
    rw [atAddr_append, atAddr_append, h.direct a hna.1, h'.direct a hna.2]
  · simp only [List.flatMap_append]
    rw [List.nodup_append]
    refine ⟨h.nodup, h'.nodup, ?_⟩
    rintro a ha _ ha' rfl
    obtain ⟨b, f, b1, b2, b3⟩ := h.dst ha
    obtain ⟨_, f', c1, _⟩ := h'.dst ha'
    exact b3 (both b1 c1 (List.mem_append_left _ b1) (List.mem_append_left _ b2))
  · intro c hc j hj
    simp only [List.flatMap_append, List.mem_append, not_or] at hc ⊢
    rcases hc with hc | hc
    · obtain ⟨b, f, b1, b2, b3, b4⟩ := h.copy c hc j hj
      refine ⟨b, f, b1, Or.inl b2, Or.inl b3, b4, ?_⟩
      intro hb
      obtain ⟨_, f', c1, _⟩ := h'.dst hb
      have := both (h.sub _ b2) c1 (List.mem_append_left _ (h.sub _ b2)) (List.mem_append_left _ b3)
      rw [this] at b4
      exact b4 (mem_copies.mpr ⟨c, hc, j, hj, rfl⟩)
    · obtain ⟨b, f, b1, b2, b3, b4⟩ := h'.copy c hc j hj
      refine ⟨b, f, b1, Or.inr b2, Or.inr b3, ?_, b4⟩
      intro hb
      obtain ⟨_, f', c1, _⟩ := h.dst hb
      have := both c1 (h'.sub _ b2) (List.mem_append_right _ (h'.sub _ b2)) (List.mem_append_right _ b3)
      rw [this] at b4
      exact b4 (mem_copies.mpr ⟨c, hc, j, hj, rfl⟩)

/-! ### The copies -/

theorem copies_keep {cs : List Copy} : ∀ {mem : Mem} {a : Nat}, a ∉ cs.flatMap Copy.dsts →
    cs.foldl (fun m c => memcpy c m) mem a = mem a := by
  induction cs with
  | nil => intro mem a _; rfl
  | cons c cs ih =>
    intro mem a ha
    simp only [List.flatMap_cons, List.mem_append, not_or] at ha
    rw [List.foldl_cons, ih ha.2]
    unfold memcpy
    rw [if_neg]
    rintro ⟨h1, h2⟩
    exact ha.1 (mem_dsts.mpr ⟨a - c.dst, by omega, by omega⟩)

theorem copies_set {cs : List Copy} (hn : (cs.flatMap Copy.dsts).Nodup) : ∀ {mem : Mem} {c : Copy} {j b : Nat},
    c ∈ cs → j < c.size → c.src + (j : Nat) = (b : Int) → b ∉ cs.flatMap Copy.dsts →
    cs.foldl (fun m c => memcpy c m) mem (c.dst + j) = mem b := by
  induction cs with
  | nil => intro mem c j b hc; simp at hc
  | cons k cs ih =>
    intro mem c j b hc hj hb hnb
    simp only [List.flatMap_cons, List.mem_append, not_or] at hnb
    rw [List.flatMap_cons, List.nodup_append] at hn
    rw [List.foldl_cons]
    rcases List.mem_cons.mp hc with rfl | hc
    · rw [copies_keep]
      · unfold memcpy
        rw [if_pos ⟨by omega, by omega⟩, Nat.add_sub_cancel_left, hb]
        rfl
      · intro h
        exact hn.2.2 _ (mem_dsts.mpr ⟨j, hj, rfl⟩) _ h rfl
    · rw [ih hn.2.1 hc hj hb hnb.2]
      unfold memcpy
      rw [if_neg]
      rintro ⟨h1, h2⟩
      exact hnb.1 (mem_dsts.mpr ⟨b - k.dst, by omega, by omega⟩)

/-- Result of the read and the copies. -/
theorem serves_value {r : List Seg × List Copy} {P : List (Int × Nat)} (h : Serves r P) (ho : OnceShared P)
    (disk mem : Mem) (a : Nat) :
    r.2.foldl (fun m c => memcpy c m) (applyPairs disk (r.1.flatMap Seg.pairs) mem) a =
      ((atAddr a P).getLast?.map (fun p => disk p.1.toNat)).getD (mem a) := by
  by_cases ha : a ∈ r.2.flatMap Copy.dsts
  · obtain ⟨c, hc, j, hj, rfl⟩ := mem_copies.mp ha
    obtain ⟨b, f, b1, b2, b3, b4⟩ := h.copy c hc j hj
    have hne : c.dst + j ≠ b := by
      intro he
      rw [he] at ha
      exact b4 ha
    have one : ∀ {x y : Nat}, (f, x) ∈ P → (f, y) ∈ P → x ≠ y → atAddr x P = [(f, x)] := by
      intro x y hx hy hxy
      have := ho f x y hx hy hxy
      have hm : (f, x) ∈ atAddr x P := mem_atAddr.mpr ⟨hx, rfl⟩
      match hl : atAddr x P with
      | [] => rw [hl] at hm; simp at hm
      | [z] => rw [hl, List.mem_singleton] at hm; rw [hm]
      | _ :: _ :: _ => rw [hl] at this; simp at this
    rw [copies_set h.nodup hc hj b1 b4, applyPairs_eq, h.direct b b4, one (h.sub _ b2) b3 (Ne.symm hne),
      one b3 (h.sub _ b2) hne]
    simp
  · rw [copies_keep ha, applyPairs_eq, h.direct a ha]

/-! ### Groups -/

/-- Two search results take the same elements of the same data block. -/
structure SameFile (h h' : Hit) : Prop where
  key : h.key = h'.key
  es : h.d.esize = h'.d.esize
  dsize : h.dsize = h'.dsize
  dstart : h.dstart = h'.dstart
  count : h.count = h'.count

/-- Two search results have no file byte in common. -/
def FileDisj (h h' : Hit) : Prop := ∀ u ∈ hitPairs h, ∀ v ∈ hitPairs h', u.1 ≠ v.1

/-- Rows with the same file range or apart. -/
def Aligned (a b : Seg) : Prop :=
  (a.f = b.f ∧ a.len = b.len) ∨ a.f + (a.len : Int) ≤ b.f ∨ b.f + (b.len : Int) ≤ a.f

theorem aligned_of_disj {a b : Seg} (ha : 0 < a.len) (hb : 0 < b.len)
    (h : ∀ u ∈ a.pairs, ∀ v ∈ b.pairs, u.1 ≠ v.1) : Aligned a b := by
  by_contra hc
  unfold Aligned at hc
  simp only [not_or] at hc
  by_cases hl : a.f ≤ b.f
  · exact h _ (mem_pairs (s := a) (i := (b.f - a.f).toNat) (by omega)) _ (mem_pairs (s := b) (i := 0) hb)
      (by simp only; omega)
  · exact h _ (mem_pairs (s := a) (i := 0) ha) _ (mem_pairs (s := b) (i := (a.f - b.f).toNat) (by omega))
      (by simp only; omega)

theorem hitRows_same {h h' : Hit} (hs : SameFile h h') {s s' : List Seg} (e : hitRows h = .ok s)
    (e' : hitRows h' = .ok s') : s.map (fun x => (x.f, x.len)) = s'.map (fun x => (x.f, x.len)) := by
  unfold hitRows at e e'
  rw [← hs.count] at e'
  cases hl : h.count.getLast? with
  | none => simp [hl] at e
  | some n =>
    simp only [hl] at e e'
    split at e
    · rename_i h1
      rw [← hs.es, if_pos h1] at e'
      injection e with e
      injection e' with e'
      subst e e'
      rw [List.map_map, List.map_map]
      apply List.map_congr_left
      intro x _
      simp only [Function.comp, hs.key, hs.dsize, hs.dstart]
    · simp at e

theorem hitRows_aligned {h h' : Hit} (hsh : HitShape h) (hsh' : HitShape h') (hp : HitPos h) (hp' : HitPos h')
    (hn : ((hitPairs h).map Prod.fst).Nodup) (hc : SameFile h h' ∨ FileDisj h h')
    {s s' : List Seg} (e : hitRows h = .ok s) (e' : hitRows h' = .ok s') :
    ∀ a ∈ s, ∀ b ∈ s', Aligned a b := by
  have q := hitRows_pairs hsh e
  have q' := hitRows_pairs hsh' e'
  have z := hitRows_pos hp e
  have z' := hitRows_pos hp' e'
  intro a ha b hb
  rcases hc with hc | hc
  · have hm : (b.f, b.len) ∈ s.map (fun x => (x.f, x.len)) := by
      rw [hitRows_same hc e e']
      exact List.mem_map.mpr ⟨b, hb, rfl⟩
    obtain ⟨c, hcm, he⟩ := List.mem_map.mp hm
    simp only [Prod.mk.injEq] at he
    have : Aligned a c := by
      by_cases hac : a = c
      · exact Or.inl ⟨by rw [hac], by rw [hac]⟩
      · apply aligned_of_disj (z a ha) (z c hcm)
        rw [← q, List.map_flatMap, List.nodup_flatMap] at hn
        rcases pairwise_mem hn.2 ha hcm with h | h | h
        · exact absurd h hac
        · intro u hu v hv huv
          exact List.disjoint_left.mp h (List.mem_map_of_mem hu) (huv ▸ List.mem_map_of_mem hv)
        · intro u hu v hv huv
          exact List.disjoint_left.mp h (List.mem_map_of_mem hv) (huv ▸ List.mem_map_of_mem hu)
    unfold Aligned at this ⊢
    rw [he.1, he.2] at this
    exact this
  · apply aligned_of_disj (z a ha) (z' b hb)
    intro u hu v hv
    exact hc u (by rw [← q]; exact List.mem_flatMap.mpr ⟨a, ha, hu⟩) v
      (by rw [← q']; exact List.mem_flatMap.mpr ⟨b, hb, hv⟩)

theorem mem_flatMapRes {f : Hit → Res (List Seg)} : ∀ {g : List Hit} {s : List Seg}, flatMapRes f g = .ok s →
    ∀ a ∈ s, ∃ h ∈ g, ∃ t, f h = .ok t ∧ a ∈ t
  | [], s, hs, a, ha => by
    simp only [flatMapRes] at hs
    injection hs with hs
    subst hs
    simp at ha
  | h :: g, s, hs, a, ha => by
    simp only [flatMapRes] at hs
    obtain ⟨x, hx, hs⟩ := Res.bind_ok hs
    obtain ⟨y, hy, hs⟩ := Res.bind_ok hs
    have hs := Res.pure_ok hs
    subst hs
    rcases List.mem_append.mp ha with ha | ha
    · exact ⟨h, by simp, x, hx, ha⟩
    · obtain ⟨k, k1, t, t1, t2⟩ := mem_flatMapRes hy a ha
      exact ⟨k, by simp [k1], t, t1, t2⟩

theorem mono_of_aligned {l : List Seg} (hs : l.Pairwise (fun a b => a.f ≤ b.f)) (hp : ∀ a ∈ l, 0 < a.len)
    (ha : ∀ a ∈ l, ∀ b ∈ l, Aligned a b) : Mono l := by
  refine (List.Pairwise.and_mem.mp hs).imp ?_
  rintro a b ⟨h1, h2, h⟩
  refine ⟨h, ?_⟩
  have := hp b h2
  rcases ha a h1 b h2 with h | h | h
  · omega
  · omega
  · omega

/-- Rows of a group in order. -/
theorem rows_mono {g : List Hit} (hsh : ∀ h ∈ g, HitShape h) (hps : ∀ h ∈ g, HitPos h)
    (hn : ∀ h ∈ g, ((hitPairs h).map Prod.fst).Nodup)
    (hc : ∀ h ∈ g, ∀ h' ∈ g, SameFile h h' ∨ FileDisj h h') {s : List Seg} (hs : flatMapRes hitRows g = .ok s) :
    Mono (sortoffsets s) ∧ ((sortoffsets s).flatMap Seg.pairs).Perm (g.flatMap hitPairs) := by
  obtain ⟨h1, h2⟩ := flatMapRes_pairs
    (fun x hx s hs => ⟨hitRows_pairs (hsh x hx) hs, hitRows_pos (hps x hx) hs⟩) hs
  have hp := sortoffsets_perm s
  refine ⟨?_, by rw [← h1]; exact hp.flatMap_right _⟩
  apply mono_of_aligned (sortoffsets_sorted s) (fun a ha => h2 a (hp.mem_iff.mp ha))
  intro a ha b hb
  obtain ⟨x, x1, t, t1, t2⟩ := mem_flatMapRes hs a (hp.mem_iff.mp ha)
  obtain ⟨y, y1, t', t1', t2'⟩ := mem_flatMapRes hs b (hp.mem_iff.mp hb)
  exact hitRows_aligned (hsh x x1) (hsh y y1) (hps x x1) (hps y y1) (hn x x1) (hc x x1 y y1) t1 t1' a t2 b t2'

theorem groupSegs_serves {g : List Hit} {r : List Seg × List Copy} (hsh : ∀ h ∈ g, HitShape h)
    (hps : ∀ h ∈ g, HitPos h) (hn : ∀ h ∈ g, ((hitPairs h).map Prod.fst).Nodup)
    (hc : ∀ h ∈ g, ∀ h' ∈ g, SameFile h h' ∨ FileDisj h h')
    (ha : ∀ a, (atAddr a (g.flatMap hitPairs)).length ≤ 1)
    (h : groupSegs g = .ok r) : Serves r (g.flatMap hitPairs) := by
  have rows : ∀ {r}, (do let s ← flatMapRes hitRows g; return trim (sortoffsets s) : Res _) = .ok r →
      Serves r (g.flatMap hitPairs) := by
    intro r h
    obtain ⟨s, hs, h⟩ := Res.bind_ok h
    have h := Res.pure_ok h
    subst h
    obtain ⟨m1, m2⟩ := rows_mono hsh hps hn hc hs
    exact serves_trim m1 m2 ha
  unfold groupSegs at h
  split at h
  · rename_i x
    obtain ⟨s, hs, h⟩ := Res.bind_ok h
    have h := Res.pure_ok h
    subst h
    apply serves_plain _ ha
    rw [hitElems_pairs (hsh x (by simp)) hs]
    simp
  · exact rows h

theorem genSegs_serves {gs : List (List Hit)} {r : List Seg × List Copy}
    (hsh : ∀ h ∈ gs.flatten, HitShape h) (hps : ∀ h ∈ gs.flatten, HitPos h)
    (hn : ∀ h ∈ gs.flatten, ((hitPairs h).map Prod.fst).Nodup)
    (hc : ∀ g ∈ gs, ∀ h ∈ g, ∀ h' ∈ g, SameFile h h' ∨ FileDisj h h')
    (ha : ∀ g ∈ gs, ∀ a, (atAddr a (g.flatMap hitPairs)).length ≤ 1)
    (ho : OnceShared (gs.flatten.flatMap hitPairs))
    (h : genSegs gs = .ok r) : Serves r (gs.flatten.flatMap hitPairs) := by
  induction gs generalizing r with
  | nil =>
    injection h with h
    subst h
    exact ⟨by simp, by simp, by simp, by simp⟩
  | cons g gs ih =>
    simp only [genSegs] at h
    obtain ⟨x, hx, h⟩ := Res.bind_ok h
    obtain ⟨y, hy, h⟩ := Res.bind_ok h
    have h := Res.pure_ok h
    subst h
    simp only [List.flatten_cons, List.flatMap_append, List.mem_append] at hsh hps hn ho ⊢
    exact (groupSegs_serves (fun z hz => hsh z (Or.inl hz)) (fun z hz => hps z (Or.inl hz))
      (fun z hz => hn z (Or.inl hz)) (hc g (by simp)) (ha g (by simp)) hx).append
      (ih (fun z hz => hsh z (Or.inr hz)) (fun z hz => hps z (Or.inr hz)) (fun z hz => hn z (Or.inr hz))
        (fun z hz => hc z (by simp [hz])) (fun z hz => ha z (by simp [hz])) (onceShared_right ho) hy) ho

/-- Reading without regard to the rules for file views. -/
def coreRead (disk : Mem) (hs : List Hit) (mem : Mem) : Res Mem := do
  let g ← genSegs (groups hs)
  return g.2.foldl (fun m c => memcpy c m) (applyPairs disk (g.1.flatMap Seg.pairs) mem)

theorem readHits_core {disk mem mem' : Mem} {hs : List Hit} (h : readHits disk hs mem = .ok mem') :
    coreRead disk hs mem = .ok mem' := by
  unfold readHits at h
  obtain ⟨r, hr, h⟩ := Res.bind_ok h
  obtain ⟨m, hm, h⟩ := Res.bind_ok h
  unfold mpiRead at hm
  simp only at hm
  split at hm
  · injection hm with hm
    subst hm
    unfold coreRead
    rw [hr]
    exact h
  · simp at hm

/-- Outcome of reading: every address gets the byte of the last search result that targets it. -/
theorem coreRead_value {disk mem mem' : Mem} {hs : List Hit} (hsh : ∀ h ∈ hs, HitShape h)
    (hps : ∀ h ∈ hs, HitPos h) (hn : ∀ h ∈ hs, ((hitPairs h).map Prod.fst).Nodup)
    (hc : ∀ g ∈ groups hs, ∀ h ∈ g, ∀ h' ∈ g, SameFile h h' ∨ FileDisj h h')
    (ha : ∀ g ∈ groups hs, ∀ a, (atAddr a (g.flatMap hitPairs)).length ≤ 1)
    (ho : OnceShared (hs.flatMap hitPairs))
    (h : coreRead disk hs mem = .ok mem') (a : Nat) :
    mem' a = ((atAddr a (hs.flatMap hitPairs)).getLast?.map (fun p => disk p.1.toNat)).getD (mem a) := by
  unfold coreRead at h
  obtain ⟨r, hr, h⟩ := Res.bind_ok h
  have h := Res.pure_ok h
  have hf := groups_flatten hs
  have sv := genSegs_serves (by rw [hf]; exact hsh) (by rw [hf]; exact hps) (by rw [hf]; exact hn)
    hc ha (by rw [hf]; exact ho) hr
  rw [hf] at sv
  subst h
  exact serves_value sv ho disk mem a

end Verif
