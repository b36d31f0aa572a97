import Verif.Lemmas.Recorded
import Verif.Props.Rows

/-
C95: what reads return after any write inside the extent.
-/

namespace Verif.Props

open Spec (AW AFile WriteOK Reach Confined InExtent NonEmpty recBlk recorded kept Skips AnyWrite carried)

section
variable {k : Nat} {w : AW}

theorem skips_le (h : Skips k w) {b : Blk} (hb : b ∈ w.bs) : k ≤ b.count.length := by
  rcases h with ⟨rfl, _, n, h⟩ | ⟨rfl, _⟩
  · have := (h b hb).2
    cases hc : b.count with
    | nil => rw [hc] at this; simp at this
    | cons c cs => simp
  · omega

/-- The counts of the recorded blocks. -/
theorem rec_count (hk : Skips k w) (hs : Spec.SelOK w.d w.bs) (hin : ∀ b ∈ w.bs, InExtent w.d.dims b) (hne : ∀ b ∈ w.bs, NonEmpty b)
    {b : Blk} (hb : b ∈ w.bs) :
    (∀ i, k + 1 ≤ i → ∀ (h1 : i < (recBlk k w.d.dims b).count.length) (h2 : i < w.d.dims.length),
      (recBlk k w.d.dims b).count[i] < w.d.dims[i]) ∧
    (∀ i, i < k → ∀ (h1 : i < (recBlk k w.d.dims b).count.length) (h2 : i < b.count.length),
      (recBlk k w.d.dims b).count[i] = b.count[i]) ∧
    (∀ (h1 : k < (recBlk k w.d.dims b).count.length) (h2 : k < b.count.length),
      b.count[k] ≤ (recBlk k w.d.dims b).count[k] ∧ (recBlk k w.d.dims b).count[k] ≤ b.count[k] + w.d.ndim) := by
  have hpos := dims_pos hs hin hne
  have hle := skips_le hk hb
  obtain ⟨x1, x2, x3⟩ := hin b hb
  have hl := recBlk_length (k := k) (dims := w.d.dims) (b := b) x2
  have hd := recBlk_drop (k := k) (dims := w.d.dims) (b := b) hle
  have hp : ∀ x ∈ w.d.dims.drop k, 0 < x := fun x hx => hpos x (List.mem_of_mem_drop hx)
  have ht := carried_tail (ds := w.d.dims.drop k) (cs := b.count.drop k) hp (by simp [x2])
  rw [← hd] at ht
  refine ⟨fun i hi h1 h2 => ?_, fun i hi h1 h2 => ?_, fun h1 h2 => ?_⟩
  · have := (digits_iff.mp ht).2 (i - k - 1) (by simp; omega) (by simp; omega)
    simp only [List.getElem_tail, List.getElem_drop] at this
    have e : k + (i - k - 1 + 1) = i := by omega
    simpa only [e] using this
  · simp only [recBlk]
    rw [List.getElem_append_left (by simp; omega), List.getElem_take]
  · have := carried_le (ds := w.d.dims.drop k) (cs := b.count.drop k) hp (by simp [x2]) (fun i a1 a2 => by
      simp only [List.getElem_drop, List.length_drop] at a1 a2 ⊢
      have := x3 (k + i) (by omega) (by omega) (by omega)
      omega)
    rw [← hd, List.drop_eq_getElem_cons h1, List.drop_eq_getElem_cons h2, List.headD_cons, List.headD_cons, List.length_drop] at this
    have hn : w.d.ndim = w.d.dims.length := rfl
    omega

theorem rec_confined (hk : Skips k w) (hs : Spec.SelOK w.d w.bs) (hin : ∀ b ∈ w.bs, InExtent w.d.dims b) (hne : ∀ b ∈ w.bs, NonEmpty b) :
    Confined (recorded k w) ↔ Confined w := by
  have hh : ∀ b ∈ w.bs, ∀ n, (recBlk k w.d.dims b).count.head? = some n → ∃ m, b.count.head? = some m ∧
      (k = 1 → n = m) ∧ 1 ≤ m ∧ m ≤ n := by
    intro b hb n hn
    obtain ⟨h1, h2, h3⟩ := rec_count hk hs hin hne hb
    have hl := recBlk_length (k := k) (dims := w.d.dims) (b := b) (hin b hb).2.1
    cases hc : b.count with
    | nil =>
      rw [hc] at hl
      rw [List.eq_nil_of_length_eq_zero hl] at hn
      simp at hn
    | cons m cs =>
      have hlt : 0 < b.count.length := by rw [hc]; simp
      have h0 : 0 < (recBlk k w.d.dims b).count.length := by omega
      rw [List.head?_eq_getElem?, List.getElem?_eq_getElem h0, Option.some.injEq] at hn
      have hm : b.count[0] = m := by simp [hc]
      have hm1 := hne b hb m (by rw [hc]; simp)
      refine ⟨m, rfl, fun e => ?_, hm1, ?_⟩
      · rw [← hn, h2 0 (by omega) h0 hlt, hm]
      · rcases hk with ⟨rfl, _⟩ | ⟨rfl, _⟩
        · rw [← hn, h2 0 (by omega) h0 hlt, hm]
        · have := (h3 h0 hlt).1
          omega
  constructor
  · rintro ⟨h1, n, h2⟩
    refine ⟨h1, n, fun b hb => ?_⟩
    obtain ⟨a1, a2⟩ := h2 (recBlk k w.d.dims b) (List.mem_map_of_mem hb)
    obtain ⟨m, m1, _, m2, m3⟩ := hh b hb 1 a2
    have : m = 1 := by omega
    exact ⟨a1, by rw [m1, this]⟩
  · intro hc
    obtain ⟨h1, n, h2⟩ := hc
    have hk1 : k = 1 := by
      rcases hk with ⟨rfl, _⟩ | ⟨_, hn⟩
      · rfl
      · exact absurd ⟨h1, n, h2⟩ hn
    refine ⟨h1, n, fun b' hb' => ?_⟩
    obtain ⟨b, hb, rfl⟩ := List.mem_map.mp hb'
    refine ⟨(h2 b hb).1, ?_⟩
    have hl := recBlk_length (k := k) (dims := w.d.dims) (b := b) (hin b hb).2.1
    have hle := skips_le hk hb
    have h0 : 0 < (recBlk k w.d.dims b).count.length := by omega
    rw [List.head?_eq_getElem?, List.getElem?_eq_getElem h0]
    obtain ⟨m, m1, m2, _⟩ := hh b hb _ (by rw [List.head?_eq_getElem?, List.getElem?_eq_getElem h0])
    rw [m2 hk1, ← m1]
    exact (h2 b hb).2

theorem rec_small (hs : Spec.SelOK w.d w.bs) (hin : ∀ b ∈ w.bs, InExtent w.d.dims b) (hne : ∀ b ∈ w.bs, NonEmpty b)
    (hc : ∀ b ∈ w.bs, ∀ n ∈ b.count, n + w.d.ndim < 2 ^ 31) : ∀ b ∈ (recorded k w).bs, ∀ n ∈ b.count, n < 2 ^ 31 := by
  intro b' hb' n hn
  obtain ⟨b, hb, rfl⟩ := List.mem_map.mp hb'
  obtain ⟨m, m1, m2⟩ := recBlk_mem (dims_pos hs hin hne) (hin b hb) n hn
  have := hc b hb m m1
  have hd : w.d.ndim = w.d.dims.length := rfl
  omega

theorem rec_selOK (hs : Spec.SelOK w.d w.bs) (hin : ∀ b ∈ w.bs, InExtent w.d.dims b) (hne : ∀ b ∈ w.bs, NonEmpty b)
    (hc : ∀ b ∈ w.bs, ∀ n ∈ b.count, n + w.d.ndim < 2 ^ 31) : Spec.SelOK w.d (recorded k w).bs := by
  refine ⟨?_, by simpa [recorded] using hs.len, fun b' hb' => ?_⟩
  · intro h
    exact hs.ne (List.map_eq_nil_iff.mp h)
  · have h4 := rec_small (k := k) hs hin hne hc b' hb'
    obtain ⟨b, hb, rfl⟩ := List.mem_map.mp hb'
    obtain ⟨h1, h2, h3, _⟩ := hs.blk b hb
    refine ⟨h1, ?_, h3, fun x hx => Nat.lt_trans (h4 x hx) (by decide)⟩
    rw [recBlk_length (hin b hb).2.1, h2]

/-- A recorded block is the block, or it is empty. -/
theorem rec_cases (hs : Spec.SelOK w.d w.bs) (hin : ∀ b ∈ w.bs, InExtent w.d.dims b) (hne : ∀ b ∈ w.bs, NonEmpty b)
    {b : Blk} (hb : b ∈ w.bs) (hle : k ≤ b.count.length) :
    (Spec.spansWhole (k + 1) w.d.dims b = false → recBlk k w.d.dims b = b) ∧
    (Spec.spansWhole (k + 1) w.d.dims b = true → 0 ∈ (recBlk k w.d.dims b).count) := by
  obtain ⟨x1, x2, x3⟩ := hin b hb
  constructor
  · intro h
    exact recBlk_same (digits_drop_tail x2 (spansWhole_iff.mp h))
  · intro h
    refine recBlk_zero (dims_pos hs hin hne) (hin b hb) (fun hd => ?_)
    have : Spec.NotFullWidth (k + 1) w.d.dims b := by
      intro i hi h1 h2
      have := (digits_iff.mp hd).2 (i - k - 1) (by simp; omega) (by simp; omega)
      simp only [List.getElem_tail, List.getElem_drop] at this
      have e : k + (i - k - 1 + 1) = i := by omega
      simpa only [e] using this
    rw [spansWhole_iff.mpr this] at h
    simp at h

theorem rec_recOf (hk : Skips k w) (hs : Spec.SelOK w.d w.bs) (hin : ∀ b ∈ w.bs, InExtent w.d.dims b) (hne : ∀ b ∈ w.bs, NonEmpty b)
    (hc : ∀ b ∈ w.bs, ∀ n ∈ b.count, n + w.d.ndim < 2 ^ 31) :
    recOf w.d (recorded k w).bs = recOf w.d w.bs ∧ recDims w.d w.bs = k := by
  have h1 := recOf_isSome_iff (w := recorded k w) (rec_selOK hs hin hne hc)
  have h2 := recOf_isSome_iff (w := w) hs
  have h3 := rec_confined hk hs hin hne
  have hd : (recorded k w).d = w.d := rfl
  rw [hd] at h1
  refine ⟨?_, ?_⟩
  · cases hr : recOf w.d w.bs with
    | none =>
      cases hr' : recOf w.d (recorded k w).bs with
      | none => rfl
      | some n =>
        have := h2.mpr (h3.mp (h1.mp (by rw [hr']; rfl)))
        rw [hr] at this
        simp at this
    | some n =>
      have hi := h1.mpr (h3.mpr (h2.mp (by rw [hr]; rfl)))
      obtain ⟨m, hm⟩ := Option.isSome_iff_exists.mp hi
      obtain ⟨b, bs, hb⟩ := List.exists_cons_of_ne_nil hs.ne
      have e1 := ((recOf_some hr).2 b (by rw [hb]; simp)).1
      have e2 := ((recOf_some hm).2 (recBlk k w.d.dims b) (List.mem_map_of_mem (by rw [hb]; simp))).1
      have e3 : (recBlk k w.d.dims b).start = b.start := rfl
      rw [e3, e1] at e2
      rw [hm, e2]
  · unfold recDims
    rcases hk with ⟨rfl, h⟩ | ⟨rfl, h⟩
    · rw [h2.mpr h, if_pos rfl]
    · rw [if_neg (fun hh => h (h2.mp hh))]

/-- Both writes make the same request. -/
theorem rec_request {cfg : Cfg} (he : cfg.selEncode = true) (hk : Skips k w) (hs : Spec.SelOK w.d w.bs)
    (hin : ∀ b ∈ w.bs, InExtent w.d.dims b) (hne : ∀ b ∈ w.bs, NonEmpty b)
    (hc : ∀ b ∈ w.bs, ∀ n ∈ b.count, n + w.d.ndim < 2 ^ 31) (hm : 1 < w.bs.length) (md : Nat) (data : List Byte) :
    mkWReq cfg w.d w.did (recorded k w).bs md data = mkWReq cfg w.d w.did w.bs md data := by
  obtain ⟨h1, h2⟩ := rec_recOf hk hs hin hne hc
  have hlen : (recorded k w).bs.length = w.bs.length := by simp [recorded]
  rcases Nat.lt_or_ge 1 (w.d.ndim - k) with hd | hd
  · have hw : encWords (dsteps w.d.dims) k (recorded k w).bs = encWords (dsteps w.d.dims) k w.bs := by
      unfold encWords recorded
      rw [List.map_map, List.map_map]
      refine congrArg₂ (· ++ ·) rfl (List.map_congr_left (fun b hb => ?_))
      simp only [Function.comp_apply]
      rw [recBlk_drop (skips_le hk hb), dsteps_drop]
      exact carried_encode (by simp [(hin b hb).2.1])
    have hf : wreqFlags cfg w.d (recorded k w).bs = wreqFlags cfg w.d w.bs := by
      unfold wreqFlags
      rw [h1, hlen]
    have hb : selBytes cfg w.d (recorded k w).bs = selBytes cfg w.d w.bs := by
      unfold recDims at h2
      unfold selBytes
      simp only [h1, h2, hlen, hw, he, Bool.and_true, hm, hd, decide_true, if_true]
    unfold mkWReq
    rw [h1, hf, hb]
  · have : (recorded k w).bs = w.bs := by
      unfold recorded
      refine (List.map_congr_left (fun b hb => ?_)).trans (List.map_id _)
      obtain ⟨x1, x2, x3⟩ := hin b hb
      have hn : w.d.ndim = w.d.dims.length := rfl
      unfold recBlk
      rw [carried_one (by simp; omega) (by simp [x2]), List.take_append_drop]
      rfl
    rw [this]

/-- What a write leaves in the cells. -/
theorem rec_cell (hk : Skips k w) (hs : Spec.SelOK w.d w.bs) (hin : ∀ b ∈ w.bs, InExtent w.d.dims b) (hne : ∀ b ∈ w.bs, NonEmpty b)
    (x : List Nat) (j : Nat) : Spec.cellByte (recorded k w) x j = Spec.cellByte (kept k w) x j := by
  unfold Spec.cellByte
  rw [positions_from, positions_from]
  have := posFrom_filter w.d.esize 0 (bs := w.bs) (f := recBlk k w.d.dims) (p := fun b => !Spec.spansWhole (k + 1) w.d.dims b) x
    (fun b hb h => (rec_cases hs hin hne hb (skips_le hk hb)).1 (by simpa using h))
    (fun b hb h => (rec_cases hs hin hne hb (skips_le hk hb)).2 (by simpa using h))
  exact congrArg (fun (l : List Nat) => l.getLast?.bind (fun p => w.data[p + j]?)) this

theorem rec_top (hk : Skips k w) (hs : Spec.SelOK w.d w.bs) (hin : ∀ b ∈ w.bs, InExtent w.d.dims b) (hne : ∀ b ∈ w.bs, NonEmpty b)
    (hsm : w.d.ndim * prod w.d.dims < 2 ^ 63) {b : Blk} (hb : b ∈ w.bs) (i : Nat)
    (hi : i < (recBlk k w.d.dims b).count.length) :
    ((recBlk k w.d.dims b).count[i] + 1) * prod (w.d.dims.drop (i + 1)) < 2 ^ 64 := by
  have hpos := dims_pos hs hin hne
  obtain ⟨x1, x2, x3⟩ := hin b hb
  obtain ⟨h1, h2, h3⟩ := rec_count hk hs hin hne hb
  have hl := recBlk_length (k := k) (dims := w.d.dims) (b := b) x2
  have hn : w.d.ndim = w.d.dims.length := rfl
  have hi' : i < w.d.dims.length := by omega
  have hp : prod w.d.dims < 2 ^ 63 :=
    Nat.lt_of_le_of_lt (Nat.le_mul_of_pos_left _ (by omega)) hsm
  have hpi := prod_drop_le hpos i
  have hpi1 := prod_drop_le hpos (i + 1)
  have hpd : prod (w.d.dims.drop i) = w.d.dims[i] * prod (w.d.dims.drop (i + 1)) := by
    rw [List.drop_eq_getElem_cons hi', prod_cons]
  rw [Nat.add_mul, Nat.one_mul]
  rcases Nat.lt_trichotomy i k with hlt | heq | hgt
  · have e := h2 i hlt hi (by omega)
    have := x3 i (by omega) (by omega) hi'
    have : (recBlk k w.d.dims b).count[i] * prod (w.d.dims.drop (i + 1)) ≤ w.d.dims[i] * prod (w.d.dims.drop (i + 1)) :=
      Nat.mul_le_mul_right _ (by omega)
    omega
  · subst heq
    have hq : ∀ x ∈ w.d.dims.drop i, 0 < x := fun x hx => hpos x (List.mem_of_mem_drop hx)
    have e1 := carried_encode (ds := w.d.dims.drop i) (cs := b.count.drop i) (by simp [x2])
    have e2 := selEncode_le_mul (ds := w.d.dims.drop i) (cs := b.count.drop i) hq (by
      intro j a1 a2
      simp only [List.getElem_drop, List.length_drop] at a1 a2 ⊢
      have := x3 (i + j) (by omega) (by omega) (by omega)
      omega)
    have e3 : (w.d.dims.drop i).length * prod (w.d.dims.drop i) ≤ w.d.ndim * prod w.d.dims :=
      Nat.mul_le_mul (by rw [hn]; simp) hpi
    rw [← recBlk_drop (skips_le hk hb), List.drop_eq_getElem_cons hi] at e1
    have e4 : (recBlk i w.d.dims b).count[i] * prod (w.d.dims.drop (i + 1)) ≤
        selEncode (dsteps (w.d.dims.drop i)) ((recBlk i w.d.dims b).count[i] :: (recBlk i w.d.dims b).count.drop (i + 1)) := by
      rw [List.drop_eq_getElem_cons hi']
      simp only [dsteps, selEncode]
      omega
    omega
  · have e := h1 i hgt hi hi'
    have : (recBlk k w.d.dims b).count[i] * prod (w.d.dims.drop (i + 1)) ≤ w.d.dims[i] * prod (w.d.dims.drop (i + 1)) :=
      Nat.mul_le_mul_right _ (by omega)
    omega

theorem rec_sum (hk : Skips k w) (hs : Spec.SelOK w.d w.bs) (hin : ∀ b ∈ w.bs, InExtent w.d.dims b) (hne : ∀ b ∈ w.bs, NonEmpty b) :
    ((recorded k w).bs.map Blk.size).sum ≤ (w.bs.map Blk.size).sum := by
  have key : ∀ l : List Blk, (∀ b ∈ l, b ∈ w.bs) → ((l.map (recBlk k w.d.dims)).map Blk.size).sum ≤ (l.map Blk.size).sum := by
    intro l
    induction l with
    | nil => intro _; exact Nat.le_refl _
    | cons b l ih =>
      intro hl
      have h1 := ih (fun c hc => hl c (List.mem_cons_of_mem _ hc))
      have hb := hl b (by simp)
      have h2 : (recBlk k w.d.dims b).size ≤ b.size := by
        obtain ⟨c1, c2⟩ := rec_cases hs hin hne hb (skips_le hk hb)
        cases hw : Spec.spansWhole (k + 1) w.d.dims b with
        | false => rw [c1 hw]
        | true =>
          have : (recBlk k w.d.dims b).size = 0 := prod_zero_of_mem (c2 hw)
          omega
      simp only [List.map_cons, List.sum_cons]
      omega
  exact key w.bs (fun _ h => h)

theorem rec_mayWrite {cfg : Cfg} {a : AFile} {r : Nat} (hk : Skips k w) (h : AnyWrite cfg a r w) :
    Spec.MayWrite cfg a r (recorded k w) := by
  have hs := h.sel
  have hl : (recorded k w).bs.length = w.bs.length := by simp [recorded]
  have hcf := rec_confined hk hs h.inside h.full
  refine ⟨⟨⟨?_, ?_⟩, h.ne, h.short, h.did, rec_selOK hs h.inside h.full h.cnt, by rw [hl]; exact h.sz, fun _ _ => ?_,
    rec_small hs h.inside h.full h.cnt⟩, h.dset, fun hsh _ p hp q hq w' hw' _ h2 => hcf.trans (h.mix hsh p hp q hq w' hw' h2), h.num⟩
  · have h1 := Nat.mul_le_mul_left w.d.esize (rec_sum hk hs h.inside h.full)
    have h2 : w.data.length = w.d.esize * (w.bs.map Blk.size).sum := h.exact
    exact h2 ▸ h1
  · intro h1
    rw [hl] at h1
    have := h.several
    omega
  · have hw : ∀ b ∈ (recorded k w).bs, Spec.NotFullWidth (k + 1) w.d.dims b := by
      intro b' hb'
      obtain ⟨b, hb, rfl⟩ := List.mem_map.mp hb'
      exact (rec_count hk hs h.inside h.full hb).1
    have hp : prod w.d.dims < 2 ^ 63 := by
      rcases Nat.eq_zero_or_pos w.d.ndim with h0 | h0
      · rw [List.eq_nil_of_length_eq_zero h0]
        decide
      · exact Nat.lt_of_le_of_lt (Nat.le_mul_of_pos_left _ h0) h.small
    refine ⟨?_, ?_, hp, ?_⟩
    · intro b' hb'
      obtain ⟨b, hb, rfl⟩ := List.mem_map.mp hb'
      obtain ⟨x1, x2, x3⟩ := h.inside b hb
      refine ⟨x1, by rw [recBlk_length x2]; exact x2, fun i h1 h2 => ?_⟩
      have a1 : i < b.start.length := h1
      have := x3 i h1 (by omega) h2
      have := h.full b hb _ (List.getElem_mem (show i < b.count.length by omega))
      show b.start[i] < w.d.dims[i]
      omega
    · rcases hk with ⟨rfl, hc⟩ | ⟨rfl, _⟩
      · exact .inr ⟨hcf.mpr hc, hw⟩
      · exact .inl hw
    · intro b' hb' i hi
      obtain ⟨b, hb, rfl⟩ := List.mem_map.mp hb'
      exact rec_top hk hs h.inside h.full h.small hb i hi

end

/-! ### C95 -/

/-- **C95.** With encoded selections: a write of several blocks inside the extent succeeds, and the file is afterwards as
after the write of the recorded blocks: all that is proved of histories holds with the recorded write in place of the
write. -/
theorem C95_write {cfg : Cfg} (he : cfg.selEncode = true) {st : FState} {a : AFile} (h : Reach cfg st a) {r : Nat} {w : AW}
    (hw : AnyWrite cfg a r w) {k : Nat} (hk : Skips k w) (hr : r < a.queue.length) :
    ∃ st', st.write r w.did w.bs w.data = .ok st' ∧ Reach cfg st' (a.write r (recorded k w)) := by
  obtain ⟨g, inv⟩ := reach_inv h
  have hm := rec_mayWrite hk hw
  obtain ⟨st', _, h1, _⟩ := inv_write inv hm hr
  have hd : st.dsets[w.did]? = some (some w.d) := by rw [inv.dsets]; exact hw.dset
  have hc : st.cfg = cfg := inv.cfgEq
  have hne : (recorded k w).bs ≠ [] := hm.ok.sel.ne
  have e : st.write r w.did (recorded k w).bs w.data = st.write r w.did w.bs w.data := by
    unfold FState.write
    rw [hd, hc]
    cases st.ranks[r]? with
    | none => rfl
    | some q =>
      simp only [writeRank, if_neg hne, if_neg hw.sel.ne]
      rw [rec_request he hk hw.sel hw.inside hw.full hw.cnt hw.several]
  exact ⟨st', e ▸ h1, Reach.write r (recorded k w) h hm h1⟩

/-- **C95.** The recorded blocks leave in every cell what the blocks that span no whole dimension leave there, with the data
of these blocks taken from the beginning of the data of the write. -/
theorem C95_effect {k : Nat} {w : AW} (hk : Skips k w) (hs : Spec.SelOK w.d w.bs) (hin : ∀ b ∈ w.bs, InExtent w.d.dims b)
    (hne : ∀ b ∈ w.bs, NonEmpty b) (x : List Nat) (j : Nat) : Spec.cellByte (recorded k w) x j = Spec.cellByte (kept k w) x j :=
  rec_cell hk hs hin hne x j

theorem lastByte_same {l l' : List AW} (h : List.Forall₂ (fun v v' => v.did = v'.did ∧ ∀ x j, Spec.cellByte v x j = Spec.cellByte v' x j) l l')
    (did : Nat) (x : List Nat) (j : Nat) : Spec.lastByte l did x j = Spec.lastByte l' did x j := by
  induction h with
  | nil => rfl
  | @cons v v' t t' h1 h2 ih =>
    have e : Spec.lastByte ([v] ++ t) did x j = Spec.lastByte ([v'] ++ t') did x j := by
      rw [lastByte_append, lastByte_append, ih]
      refine congrArg (Option.or _) ?_
      simp only [Spec.lastByte, List.filter_cons, List.filter_nil, h1.1]
      split
      · simp only [List.filterMap_cons, List.filterMap_nil, h1.2]
      · rfl
    exact e

theorem modify_flatten_same {R : AW → AW → Prop} (hR : ∀ v, R v v) {w w' : AW} (hw : R w w') (q : List (List AW)) (r : Nat) :
    List.Forall₂ R (q.modify r (fun p => p ++ [w])).flatten (q.modify r (fun p => p ++ [w'])).flatten := by
  have hrefl : ∀ l : List AW, List.Forall₂ R l l := by
    intro l
    induction l with
    | nil => exact .nil
    | cons v l ih => exact .cons (hR v) ih
  induction q generalizing r with
  | nil => cases r <;> exact .nil
  | cons p q ih =>
    cases r with
    | zero =>
      simp only [List.modify_zero_cons, List.flatten_cons]
      exact List.rel_append (List.rel_append (hrefl p) (.cons hw .nil)) (hrefl _)
    | succ r =>
      simp only [List.modify_succ_cons, List.flatten_cons]
      exact List.rel_append (hrefl p) (ih r)

/-- **C95, partial: histories that can be indexed.** With encoded selections: after a write of several blocks inside the
extent, a read returns for every cell what the write of those blocks that span no whole dimension would have left, with their
data taken from the beginning of the data of the write. -/
theorem C95_read_partial {cfg : Cfg} (he : cfg.selEncode = true) {st : FState} {a : AFile} (h : Reach cfg st a) {r : Nat} {w : AW}
    (hw : AnyWrite cfg a r w) {k : Nat} (hk : Skips k w) (hr : r < a.queue.length)
    {coll : Bool} (hcoll : Spec.SeesQueue coll (a.write r (recorded k w))) {qs : List RReq}
    (hi : Spec.Served cfg st.compact (a.write r (recorded k w)).flush.metaflush qs)
    (hq : Spec.ReqsOK st.compact a.dsets qs) (hv : Spec.Viewable qs) {r' : Nat} (hr' : r' < a.queue.length) :
    ∃ st', st.write r w.did w.bs w.data = .ok st' ∧ ∀ {doff mdoff : Nat}, Spec.Fresh st' doff → Spec.Fresh st' mdoff →
      doff + Spec.queued (a.write r w) ≤ mdoff → ∃ st1, st'.prepare coll doff mdoff = .ok st1 ∧
        (Spec.Small st1 → Spec.Returns st1 r' qs ((a.write r (kept k w)).done ++ (a.write r (kept k w)).queue.flatten)) := by
  obtain ⟨st', h1, h2⟩ := C95_write he h hw hk hr
  have hcp : st'.compact = st.compact := by
    unfold FState.write at h1
    split at h1
    · obtain ⟨_, _, h1⟩ := Res.bind_ok h1
      simp only [Res.pure_eq, Res.ok.injEq] at h1
      rw [← h1]
    · simp at h1
  refine ⟨st', h1, fun {doff mdoff} f1 f2 f3 => ?_⟩
  have hqd : Spec.queued (a.write r (recorded k w)) = Spec.queued (a.write r w) := by
    unfold Spec.queued AFile.write
    have := modify_flatten_same (R := fun v v' => v.data.length = v'.data.length) (fun _ => rfl) (w := recorded k w) (w' := w) rfl
      a.queue r
    simp only
    exact congrArg List.sum (List.forall₂_eq_eq_eq ▸ (List.forall₂_map_left_iff.mpr (List.forall₂_map_right_iff.mpr this)))
  have hsame := modify_flatten_same
    (R := fun v v' => v.did = v'.did ∧ ∀ x j, Spec.cellByte v x j = Spec.cellByte v' x j) (fun _ => ⟨rfl, fun _ _ => rfl⟩)
    (w := recorded k w) (w' := kept k w) ⟨rfl, C95_effect hk hw.sel hw.inside hw.full⟩ a.queue r
  obtain ⟨st1, p1, p2⟩ := C02_readback_partial cfg h2 hcoll f1 f2 (by rw [hqd]; exact f3) (qs := qs) (by rw [hcp]; exact hi)
    (by rw [hcp]; exact hq) hv (r := r') (by simpa [AFile.write] using hr') (.inr (fun hn => by
      have h3 := (List.append_eq_nil_iff.mp hn).2
      have h4 : (a.write r (recorded k w)).queue[r]? = some (a.queue[r] ++ [recorded k w]) := by
        simp only [AFile.write, List.getElem?_modify_eq, List.getElem?_eq_getElem hr]
        rfl
      have h5 := List.flatten_eq_nil_iff.mp h3 _ (List.mem_of_getElem? h4)
      simp at h5))
  refine ⟨st1, p1, fun hsm => Returns.congr ?_ (p2 hsm)⟩
  intro q _ c j _
  rw [lastByte_append, lastByte_append]
  refine congrArg₂ Option.or (lastByte_same hsame _ _ _) rfl

/-! ### A case -/

theorem rx_skips : Skips 0 rxW := .inr ⟨rfl, fun h => by have := h.1; simp [rxW, rwD] at this⟩

theorem rx_any (share : Bool) {mem : AFile} (hm : mem = (AFile.create 1).addDset rwD) : AnyWrite ⟨true, share⟩ mem 0 rxW := by
  subst hm
  have hb : ∀ b ∈ rxW.bs, b = ⟨[0, 0], [1, 4]⟩ ∨ b = ⟨[2, 0], [1, 2]⟩ := by
    intro b hb
    simpa [rxW] using hb
  refine ⟨rfl, by decide, by decide, by decide, ⟨by decide, by decide, ?_⟩, by decide, by decide, ?_, ?_, by decide, by decide, rfl, ?_, ?_⟩
  · intro b h
    rcases hb b h with rfl | rfl <;> constructor <;> decide
  · intro b h
    rcases hb b h with rfl | rfl <;> simp [Spec.inExtent_cons, Spec.inExtent_nil, rwD, rxW]
  · intro b h
    rcases hb b h with rfl | rfl <;> unfold NonEmpty <;> decide
  · intro _ p hp q hq w' hw'
    simp [AFile.create, AFile.addDset] at hp hq
    rw [hp, hq] at hw'
    simp at hw'
  · intro p hp q hq
    simp [AFile.create, AFile.addDset] at hp hq
    rw [hp, hq]
    decide

/-- Row 0 and two cells of row 2: the row is lost, and the two cells hold the first two values of the row. -/
example : recorded 0 rxW = ⟨0, rwD, [⟨[0, 0], [2, 0]⟩, ⟨[2, 0], [1, 2]⟩], [1, 2, 3, 4, 5, 6]⟩ ∧
    kept 0 rxW = ⟨0, rwD, [⟨[2, 0], [1, 2]⟩], [1, 2, 3, 4, 5, 6]⟩ ∧
    Spec.cellByte (kept 0 rxW) [2, 1] 0 = some 2 ∧ Spec.cellByte rxW [2, 1] 0 = some 6 ∧
    Spec.cellByte (kept 0 rxW) [0, 1] 0 = none := by decide

/-- Hypotheses of `C95_write` and `C95_read_partial`. -/
example (share compact : Bool) : ∃ st a, Reach ⟨true, share⟩ st a ∧ AnyWrite ⟨true, share⟩ a 0 rxW ∧ Skips 0 rxW ∧
    0 < a.queue.length ∧ Spec.SeesQueue true (a.write 0 (recorded 0 rxW)) ∧
    Spec.Served ⟨true, share⟩ st.compact (a.write 0 (recorded 0 rxW)).flush.metaflush [rxQ] ∧
    Spec.ReqsOK st.compact a.dsets [rxQ] ∧ Spec.Viewable [rxQ] := by
  have hq : Spec.ReqsOK compact [some rwD] [rxQ] := by
    refine ⟨by simp [rxQ], by simp [rxQ, rwD], by simp [rxQ, rwD, DInfo.ndim], by simp [rxQ], by simp [rxQ], by simp [rxQ],
      List.pairwise_singleton _ _, List.pairwise_singleton _ _⟩
  refine ⟨rwFile share compact, (AFile.create 1).addDset rwD, Reach.addDset _ (Reach.create compact none 1 _ (by omega) (by omega)),
    rx_any share rfl, rx_skips, by decide, .inl rfl, (indexable_short ?_ ?_).served hq.wf, hq, viewable_one rxQ _ rfl⟩
  · decide
  · decide

end Verif.Props
