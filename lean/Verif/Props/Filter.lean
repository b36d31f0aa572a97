import Verif.Model.Filter

/-
C23: data filters.
-/

namespace Verif.Props

/-- `f` applied `n` times. -/
def times {α : Type} (f : α → α) : Nat → α → α
  | 0, x => x
  | n + 1, x => times f n (f x)

theorem times_succ {α : Type} (f : α → α) (n : Nat) (x : α) : times f (n + 1) x = f (times f n x) := by
  induction n generalizing x with
  | zero => rfl
  | succ n ih => exact ih (f x)

/-- The library never needs more than its own bound. -/
def Spec.Bounded (z : Zlib) : Prop := ∀ x, (z.comp x).length ≤ z.bound x.length

/-- `dec` undoes the compression. -/
def Spec.Lossless (z : Zlib) (dec : List Byte → Option (List Byte)) : Prop := ∀ x, dec (z.comp x) = some x

/-- All filters of the pipeline are supported. -/
def Spec.Supported (pl : List FilterId) : Prop := ∀ f ∈ pl, f = .deflate

theorem deflateAlloc_ok {z : Zlib} (hb : Spec.Bounded z) (x : List Byte) (dst : ZBuf) (hd : dst.len ≤ dst.cap) :
    ∃ out, deflateAlloc z x dst = .ok out ∧ out.bytes.take out.len = z.comp x ∧ out.len = (z.comp x).length ∧
      max dst.len out.len ≤ out.cap := by
  have h := hb x
  have h1 : ¬ z.bound x.length < (z.comp x).length := by omega
  have h2 : ¬ (if decide (dst.len < z.bound x.length) = true then z.bound x.length else dst.cap) < (z.comp x).length := by
    split <;> rename_i hc <;> simp at hc <;> omega
  refine ⟨_, by unfold deflateAlloc; simp only []; rw [if_neg h1, if_neg h2], ?_, rfl, ?_⟩
  · simp
  · show max dst.len (z.comp x).length ≤ (if decide (dst.len < z.bound x.length) = true then z.bound x.length else dst.cap)
    split <;> rename_i hc <;> simp at hc <;> omega

/-- Buffers whose known size does not exceed the allocated one. -/
def BufsOK (bufs : Bool → ZBuf) : Prop := ∀ k, (bufs k).len ≤ (bufs k).cap

theorem BufsOK.set {bufs : Bool → ZBuf} (h : BufsOK bufs) {b : ZBuf} (hb : b.len ≤ b.cap) (k : Bool) :
    BufsOK (setBuf bufs k b) := by
  intro j
  unfold setBuf
  split
  · exact hb
  · exact h j

theorem null_ok : BufsOK (fun _ => ZBuf.null) := fun _ => Nat.le_refl _

theorem filterLoop_ok {z : Zlib} (hb : Spec.Bounded z) (inp : List Byte) :
    ∀ (pl : List FilterId) (i : Nat) (bufs : Bool → ZBuf) (sizeIn : Nat), pl ≠ [] → Spec.Supported pl → BufsOK bufs →
      filterLoop z inp pl i bufs sizeIn =
        .ok (times z.comp pl.length (if i = 0 then inp else (bufs (odd i)).bytes.take sizeIn)) := by
  intro pl
  induction pl with
  | nil => intro _ _ _ h; exact absurd rfl h
  | cons f fs ih =>
    intro i bufs sizeIn _ hs hk
    have hf : f = .deflate := hs f (by simp)
    obtain ⟨src, hsrc⟩ : ∃ s, s = (if i = 0 then inp else (bufs (odd i)).bytes.take sizeIn) := ⟨_, rfl⟩
    obtain ⟨dst, hdst⟩ : ∃ d, d = (if fs = [] then ZBuf.null else bufs (odd (i + 1))) := ⟨_, rfl⟩
    have hd : dst.len ≤ dst.cap := by
      rw [hdst]; split
      · exact Nat.le_refl _
      · exact hk _
    obtain ⟨out, e, h1, h2, h3⟩ := deflateAlloc_ok hb src dst hd
    rw [filterLoop]
    simp only [hf, ne_eq, not_true_eq_false, if_false]
    rw [← hsrc, ← hdst, e, Res.ok_bind]
    by_cases hn : fs = []
    · rw [if_pos hn, h1, hn]; rfl
    · rw [if_neg hn, ih _ _ _ hn (fun g hg => hs g (List.mem_cons_of_mem _ hg)) (hk.set h3 _),
        if_neg (Nat.succ_ne_zero i)]
      show _ = Res.ok (times z.comp fs.length (z.comp src))
      rw [← h1]
      simp [setBuf]

theorem unfilterLoop_ok {z : Zlib} (hb : Spec.Bounded z) (inp : List Byte) :
    ∀ (pl : List FilterId) (first : Bool) (bufs : Bool → ZBuf) (sizeIn : Nat), pl ≠ [] → Spec.Supported pl → BufsOK bufs →
      unfilterLoop z inp pl first bufs sizeIn =
        .ok (times z.comp pl.length (if first then inp else (bufs (odd (pl.length - 1))).bytes.take sizeIn)) := by
  intro pl
  induction pl with
  | nil => intro _ _ _ h; exact absurd rfl h
  | cons f fs ih =>
    intro first bufs sizeIn _ hs hk
    have hf : f = .deflate := hs f (by simp)
    obtain ⟨src, hsrc⟩ : ∃ s, s = (if first then inp else (bufs (odd fs.length)).bytes.take sizeIn) := ⟨_, rfl⟩
    obtain ⟨dst, hdst⟩ : ∃ d, d = (if fs = [] then ZBuf.null else bufs (odd (fs.length + 1))) := ⟨_, rfl⟩
    have hd : dst.len ≤ dst.cap := by
      rw [hdst]; split
      · exact Nat.le_refl _
      · exact hk _
    obtain ⟨out, e, h1, h2, h3⟩ := deflateAlloc_ok hb src dst hd
    rw [unfilterLoop]
    simp only [hf, ne_eq, not_true_eq_false, if_false, List.length_cons, Nat.add_sub_cancel]
    rw [← hsrc, ← hdst, e, Res.ok_bind]
    by_cases hn : fs = []
    · rw [if_pos hn, h1, hn]; rfl
    · rw [if_neg hn, ih _ _ _ hn (fun g hg => hs g (List.mem_cons_of_mem _ hg)) (hk.set h3 _)]
      show _ = Res.ok (times z.comp fs.length (z.comp src))
      rw [← h1]
      have hl : 0 < fs.length := List.length_pos_iff.mpr hn
      have hp : odd (fs.length - 1) = odd (fs.length + 1) := by
        unfold odd
        rw [decide_eq_decide]; omega
      simp [setBuf, hp]

theorem filter_ok {z : Zlib} (hb : Spec.Bounded z) {pl : List FilterId} (hn : pl ≠ []) (hs : Spec.Supported pl)
    (x : List Byte) : filter z pl x = .ok (times z.comp pl.length x) := by
  unfold filter
  rw [filterLoop_ok hb x pl 0 _ 0 hn hs null_ok, if_pos rfl]

theorem unfilter_ok {z : Zlib} (hb : Spec.Bounded z) {pl : List FilterId} (hn : pl ≠ []) (hs : Spec.Supported pl)
    (x : List Byte) : unfilter z pl x = .ok (times z.comp pl.length x) := by
  unfold unfilter
  rw [unfilterLoop_ok hb x pl.reverse true _ 0 (by simpa using hn) (fun f hf => hs f (List.mem_reverse.mp hf)) null_ok,
    if_pos rfl, List.length_reverse]

/-- `n` decompressions. -/
def decTimes (dec : List Byte → Option (List Byte)) : Nat → List Byte → Option (List Byte)
  | 0, x => some x
  | n + 1, x => (dec x).bind (decTimes dec n)

theorem decTimes_times {z : Zlib} {dec : List Byte → Option (List Byte)} (hl : Spec.Lossless z dec) (n : Nat) (x : List Byte) :
    decTimes dec n (times z.comp n x) = some x := by
  induction n generalizing x with
  | zero => rfl
  | succ n ih =>
    rw [times_succ, decTimes, hl]
    exact ih x

/-- **C23, what is stored (partial).** For every data block and every pipeline of supported filters a write stores a block
from which decompressing once per filter gives back the data; the write succeeds and stays inside its buffers.  Without
filters the data are stored as they are.  Missing: reading back, see the `C23_..._violated` theorems. -/
theorem C23_stored_partial (z : Zlib) (dec : List Byte → Option (List Byte)) (hb : Spec.Bounded z) (hl : Spec.Lossless z dec)
    (pl : List FilterId) (hs : Spec.Supported pl) (data : List Byte) :
    ∃ stored, writeFilter z pl data = .ok stored ∧ decTimes dec pl.length stored = some data := by
  by_cases hn : pl = []
  · exact ⟨data, by rw [writeFilter, if_pos hn], by rw [hn]; rfl⟩
  · exact ⟨_, by rw [writeFilter, if_neg hn, filter_ok hb hn hs], decTimes_times hl _ _⟩

/-- A pipeline with an unsupported filter makes every write fail (no block is stored), and every read of a block that is there. -/
theorem C23_unsupported_partial (z : Zlib) (pl : List FilterId) (f : FilterId) (hf : f ∈ pl) (hd : f ≠ .deflate)
    (hb : Spec.Bounded z) (data : List Byte) : writeFilter z pl data = .err ∧ ∀ h, readFiltered z pl h data = .err := by
  have hn : pl ≠ [] := fun h => by rw [h] at hf; cases hf
  have key : ∀ (pl : List FilterId) (i : Nat) (bufs : Bool → ZBuf) (sizeIn : Nat), f ∈ pl → BufsOK bufs →
      filterLoop z data pl i bufs sizeIn = .err := by
    intro pl
    induction pl with
    | nil => intro _ _ _ h; cases h
    | cons g fs ih =>
      intro i bufs sizeIn hm hk
      rw [filterLoop]
      by_cases hg : g = .deflate
      · have hfs : f ∈ fs := by
          rcases List.mem_cons.mp hm with h | h
          · exact absurd (h.trans hg) hd
          · exact h
        have hne : fs ≠ [] := fun h => by rw [h] at hfs; cases hfs
        simp only [hg, ne_eq, not_true_eq_false, if_false, if_neg hne]
        obtain ⟨out, e, _, _, h3⟩ := deflateAlloc_ok hb
          (if i = 0 then data else (bufs (odd i)).bytes.take sizeIn) (bufs (odd (i + 1))) (hk _)
        rw [e, Res.ok_bind]
        exact ih _ _ _ hfs (hk.set h3 _)
      · simp only [ne_eq, hg, not_false_eq_true, if_true]
  have key' : ∀ (pl : List FilterId) (first : Bool) (bufs : Bool → ZBuf) (sizeIn : Nat), f ∈ pl → BufsOK bufs →
      unfilterLoop z data pl first bufs sizeIn = .err := by
    intro pl
    induction pl with
    | nil => intro _ _ _ h; cases h
    | cons g fs ih =>
      intro first bufs sizeIn hm hk
      rw [unfilterLoop]
      by_cases hg : g = .deflate
      · have hfs : f ∈ fs := by
          rcases List.mem_cons.mp hm with h | h
          · exact absurd (h.trans hg) hd
          · exact h
        have hne : fs ≠ [] := fun h => by rw [h] at hfs; cases hfs
        simp only [hg, ne_eq, not_true_eq_false, if_false, if_neg hne]
        obtain ⟨out, e, _, _, h3⟩ := deflateAlloc_ok hb
          (if first then data else (bufs (odd fs.length)).bytes.take sizeIn) (bufs (odd (fs.length + 1))) (hk _)
        rw [e, Res.ok_bind]
        exact ih _ _ _ hfs (hk.set h3 _)
      · simp only [ne_eq, hg, not_false_eq_true, if_true]
  refine ⟨?_, fun h => ?_⟩
  · rw [writeFilter, if_neg hn]
    exact key pl 0 _ 0 hf null_ok
  · have : unfilterBlock z pl h.xsize data = .err := by
      unfold unfilterBlock unfilter
      rw [key' pl.reverse true _ 0 (List.mem_reverse.mpr hf) null_ok]
      rfl
    unfold readFiltered
    rw [this]
    rfl

/-- **C23 is violated: unfiltering compresses again.** For every library whose streams start with the byte `0x78` (as those
of zlib with default settings) and every non-empty supported pipeline, filtering and unfiltering a block that does not
start with this byte does not give the block back. -/
theorem C23_unfilter_violated (z : Zlib) (hb : Spec.Bounded z) (hz : ∀ x, (z.comp x).head? = some 0x78)
    (pl : List FilterId) (hn : pl ≠ []) (hs : Spec.Supported pl) (data : List Byte) (hd : data.head? ≠ some 0x78) :
    ∃ stored out, writeFilter z pl data = .ok stored ∧ unfilter z pl stored = .ok out ∧ out ≠ data := by
  refine ⟨_, _, by rw [writeFilter, if_neg hn, filter_ok hb hn hs], unfilter_ok hb hn hs _, ?_⟩
  intro h
  obtain ⟨n, hl⟩ : ∃ n, pl.length = n + 1 := by
    cases pl with
    | nil => exact absurd rfl hn
    | cons a l => exact ⟨_, rfl⟩
  rw [← h, hl, times_succ] at hd
  exact hd (hz _)

/-- **C23 is violated: no filtered read of more than one byte succeeds.** For every library, pipeline, search result and
stored block the read of a part of more than one byte is refused or undefined. -/
theorem C23_read_violated (z : Zlib) (pl : List FilterId) (h : Hit) (stored : List Byte)
    (hc : 1 < h.d.esize * prod h.count) : ∀ out, readFiltered z pl h stored ≠ .ok out := by
  intro out e
  unfold readFiltered at e
  cases hu : unfilterBlock z pl h.xsize stored with
  | err => rw [hu] at e; cases e
  | ub => rw [hu] at e; cases e
  | ok zb =>
    rw [hu, Res.ok_bind] at e
    unfold packBlock at e
    cases hh : hitElems { h with foff := 0 } with
    | err => rw [hh] at e; cases e
    | ub => rw [hh] at e; cases e
    | ok segs =>
      rw [hh, Res.ok_bind] at e
      rw [if_pos hc] at e
      cases e

/-- **C23 is violated: overrun.** If compressing the stored block again gives more bytes than both the entry size and the
stored size, the unfiltered block is copied past the end of its buffer. -/
theorem C23_overrun_violated (z : Zlib) (hb : Spec.Bounded z) (pl : List FilterId) (hn : pl ≠ []) (hs : Spec.Supported pl)
    (h : Hit) (stored : List Byte)
    (hl : max h.xsize stored.length < (times z.comp pl.length stored).length) :
    readFiltered z pl h stored = .ub := by
  have : unfilterBlock z pl h.xsize stored = .ub := by
    unfold unfilterBlock
    rw [unfilter_ok hb hn hs, Res.ok_bind, if_pos hl]
  unfold readFiltered
  rw [this]
  rfl

/-! ### Concrete cases -/

/-- A toy library: two header bytes, then the data. -/
def toyZ : Zlib := ⟨fun x => 0x78 :: 0x9c :: x, fun n => n + 13⟩

def toyDec : List Byte → Option (List Byte)
  | _ :: _ :: x => some x
  | _ => none

theorem toy_bounded : Spec.Bounded toyZ := fun x => by
  show (0x78 :: 0x9c :: x : List Byte).length ≤ x.length + 13
  simp

theorem toy_lossless : Spec.Lossless toyZ toyDec := fun _ => rfl

example : Spec.Supported [.deflate, .deflate, .deflate] ∧
    writeFilter toyZ [.deflate, .deflate, .deflate] [1, 2] = .ok [0x78, 0x9c, 0x78, 0x9c, 0x78, 0x9c, 1, 2] ∧
    unfilter toyZ [.deflate] [0x78, 0x9c, 1, 2] = .ok [0x78, 0x9c, 0x78, 0x9c, 1, 2] := by
  refine ⟨?_, by decide +kernel, by decide +kernel⟩
  intro f hf
  simp at hf
  exact hf

example : writeFilter toyZ [.deflate, .other 5] [1, 2] = .err := by decide +kernel

/-- A search result of a one-dimensional dataset of two elements of one byte, read whole. -/
def toyHit : Hit :=
  { d := ⟨[2], [some 2], 1⟩, dsize := [2], dstart := [0], msize := [2], mstart := [0], count := [2], xsize := 2,
    doff := 0, xbuf := 100, foff := 0, fsize := 4 }

example : 1 < toyHit.d.esize * prod toyHit.count ∧
    max toyHit.xsize [(0x78 : Byte), 0x9c, 1, 2].length <
      (times toyZ.comp 1 [(0x78 : Byte), 0x9c, 1, 2]).length := by decide +kernel

example : readFiltered toyZ [.deflate] toyHit [0x78, 0x9c, 1, 2] = .ub := by decide +kernel

end Verif.Props
