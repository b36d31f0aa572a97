import Verif.Lemmas.FileTop

namespace Verif

open Spec (Tiles flushedNow)

theorem Spec.Tiles.append {rs rs' : List (Int × Nat)} : ∀ {s m e : Int}, Tiles s rs m → Tiles m rs' e →
    Tiles s (rs ++ rs') e := by
  induction rs with
  | nil => intro s m e h1 h2; simp only [Tiles] at h1; subst h1; exact h2
  | cons r rs ih =>
    intro s m e h1 h2
    obtain ⟨o, n⟩ := r
    exact ⟨h1.1, ih h1.2 h2⟩

theorem Spec.Tiles.le {rs : List (Int × Nat)} : ∀ {s e : Int}, Tiles s rs e → s ≤ e := by
  induction rs with
  | nil => intro s e h; simp only [Tiles] at h; omega
  | cons r rs ih =>
    intro s e h
    obtain ⟨o, n⟩ := r
    have := ih h.2
    omega

/-- What tiling means: the ranges are inside, in order without overlap, and cover everything. -/
theorem Spec.Tiles.spec {rs : List (Int × Nat)} : ∀ {s e : Int}, Tiles s rs e →
    (∀ r ∈ rs, s ≤ r.1 ∧ r.1 + r.2 ≤ e) ∧ rs.Pairwise (fun r r' => r.1 + (r.2 : Int) ≤ r'.1) ∧
    ∀ x, s ≤ x → x < e → ∃ r ∈ rs, r.1 ≤ x ∧ x < r.1 + r.2 := by
  induction rs with
  | nil =>
    intro s e h
    simp only [Tiles] at h
    refine ⟨by simp, by simp, ?_⟩
    intro x h1 h2
    omega
  | cons r rs ih =>
    intro s e h
    obtain ⟨o, n⟩ := r
    obtain ⟨h1, h2⟩ := h
    obtain ⟨i1, i2, i3⟩ := ih h2
    have hle := h2.le
    subst h1
    refine ⟨?_, ?_, ?_⟩
    · intro r hr
      rcases List.mem_cons.mp hr with rfl | hr
      · simp only; omega
      · have := i1 r hr; omega
    · refine List.pairwise_cons.mpr ⟨fun r hr => ?_, i2⟩
      have := i1 r hr
      simp only; omega
    · intro x hx1 hx2
      by_cases hx : x < o + n
      · exact ⟨(o, n), by simp, hx1, hx⟩
      · obtain ⟨r, hr, h3⟩ := i3 x (by omega) hx2
        exact ⟨r, by simp [hr], h3⟩

/-- The requests of one process after the flush. -/
def shifted (off : Nat) (rs : List WReq) : List WReq :=
  (localOffs 0 rs).map (fun r => { r with foff := r.foff + off })

theorem localOffs_tiles (rs : List WReq) : ∀ (acc off : Nat),
    Tiles ((acc + off : Nat) : Int) (((localOffs acc rs).map (fun r => { r with foff := r.foff + off })).map
      (fun r => (r.foff, r.data.length))) ((acc + off + (rs.map (fun r => r.data.length)).sum : Nat) : Int) ∧
    ((localOffs acc rs).map (fun r => { r with foff := r.foff + off })).map (fun r => { r with foff := 0 }) =
      rs.map (fun r => { r with foff := 0 }) := by
  induction rs with
  | nil => intro acc off; simp [localOffs, Tiles]
  | cons r rs ih =>
    intro acc off
    obtain ⟨h1, h2⟩ := ih (acc + r.data.length) off
    simp only [localOffs, List.map_cons, List.sum_cons]
    constructor
    · refine ⟨by simp, ?_⟩
      have e1 : ((acc + off : Nat) : Int) + (r.data.length : Nat) = ((acc + r.data.length + off : Nat) : Int) := by
        omega
      have e2 : ((acc + off + (r.data.length + (rs.map (fun r => r.data.length)).sum) : Nat) : Int) =
          ((acc + r.data.length + off + (rs.map (fun r => r.data.length)).sum : Nat) : Int) := by omega
      rw [e1, e2]
      exact h1
    · rw [h2]

theorem flushAt_drop {k : Rank} (h : k.nflushed ≤ k.wreqs.length) (off : Nat) :
    (k.flushAt off).wreqs.drop k.nflushed = shifted off k.pending ∧
    (k.flushAt off).wreqs.take k.nflushed = k.wreqs.take k.nflushed := by
  have hl : (k.wreqs.take k.nflushed).length = k.nflushed := by rw [List.length_take]; omega
  unfold Rank.flushAt shifted
  exact ⟨List.drop_left' hl, List.take_left' hl⟩

/-- The requests of all processes. -/
theorem flush_tiles (ks : List Rank) (h : ∀ k ∈ ks, k.nflushed ≤ k.wreqs.length) : ∀ (acc doff : Nat),
    Tiles ((acc + doff : Nat) : Int) ((List.zipWith (fun k k' => k'.wreqs.drop k.nflushed) ks
      (List.zipWith (fun k off => k.flushAt (off + doff)) ks (exscan acc (ks.map Rank.localSize)))).flatten.map
        (fun r => (r.foff, r.data.length)))
      ((acc + doff + (ks.map Rank.localSize).sum : Nat) : Int) := by
  induction ks with
  | nil => intro acc doff; simp [Tiles]
  | cons k ks ih =>
    intro acc doff
    simp only [List.map_cons, exscan, List.zipWith_cons_cons, List.flatten_cons, List.map_append,
      List.sum_cons]
    refine Spec.Tiles.append (m := ((acc + k.localSize + doff : Nat) : Int)) ?_ ?_
    · rw [(flushAt_drop (h k (by simp)) _).1]
      have := (localOffs_tiles k.pending 0 (acc + doff)).1
      rw [Nat.zero_add] at this
      have e : acc + k.localSize + doff = acc + doff + (k.pending.map (fun r => r.data.length)).sum := by
        unfold Rank.localSize; omega
      rw [e]
      exact this
    · have := ih (fun k' hk => h k' (by simp [hk])) (acc + k.localSize) doff
      have e : acc + doff + (k.localSize + (ks.map Rank.localSize).sum) =
          acc + k.localSize + doff + (ks.map Rank.localSize).sum := by omega
      rw [e]
      exact this

theorem flush_same_reqs (ks : List Rank) (h : ∀ k ∈ ks, k.nflushed ≤ k.wreqs.length) : ∀ (acc doff : Nat),
    (List.zipWith (fun k k' => k'.wreqs.drop k.nflushed) ks
      (List.zipWith (fun k off => k.flushAt (off + doff)) ks (exscan acc (ks.map Rank.localSize)))).flatten.map
        (fun r => { r with foff := 0 }) =
      (ks.flatMap Rank.pending).map (fun r => { r with foff := 0 }) := by
  induction ks with
  | nil => intro acc doff; simp
  | cons k ks ih =>
    intro acc doff
    simp only [List.map_cons, exscan, List.zipWith_cons_cons, List.flatten_cons, List.map_append,
      List.flatMap_cons]
    rw [ih (fun k' hk => h k' (by simp [hk])), (flushAt_drop (h k (by simp)) _).1]
    congr 1
    exact (localOffs_tiles k.pending 0 _).2

/-- Ranges that tile and hold consecutive parts of what was written. -/
theorem tiles_stored (disk : Mem) : ∀ (rs : List WReq) (s : Nat) (e : Int),
    Tiles s (rs.map (fun r => (r.foff, r.data.length))) e →
    ∀ r ∈ rs, ∀ i, ∀ h : i < r.data.length,
      writeAt disk s (rs.flatMap (fun r => r.data)) (r.foff.toNat + i) = r.data[i] := by
  intro rs
  induction rs generalizing disk with
  | nil => intro s e _ r hr; simp at hr
  | cons q rs ih =>
    intro s e ht r hr i hi
    obtain ⟨h1, h2⟩ := ht
    rw [List.flatMap_cons]
    rcases List.mem_cons.mp hr with rfl | hr
    · rw [h1, Int.toNat_natCast, writeAt_in (by simp; omega), List.getElem_append_left hi]
    · rw [← writeAt_append]
      have e1 : ((s : Int) + (q.data.length : Nat)) = ((s + q.data.length : Nat) : Int) := by omega
      rw [e1] at h2
      exact ih _ _ _ h2 r hr i hi

end Verif
