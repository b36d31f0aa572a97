import Verif.Lemmas.FormatRead
import Verif.Props.FileEx

/-
C91: metadata datasets follow one format, from which the writes can be read; it is not the documented one.
-/

namespace Verif.Props

open Spec (AW AFile Reach)
open Spec.Format

/-- Number of dimensions of the datasets. -/
def ndimOf (dsets : DSets) (did : Nat) : Nat :=
  match dsets[did]? with
  | some (some d) => d.ndim
  | _ => 0

/-- **C91, written.** In every history, every metadata dataset is a text of the format: for each process that took part in its flush, the
entries of the writes of that process, in order, with dataset, selection and place of the data. Together the metadata datasets list
all writes flushed to them and no others. -/
theorem C91_written {cfg : Cfg} {st : FState} {a : AFile} (h : Reach cfg st a) :
    ∃ mds : List (List (List Entry × List AW)),
      List.Forall₂ (fun m ss => fileBytes st.disk m.addr m.size = text actual (ss.map Prod.fst) ∧
        ∀ s ∈ ss, Describes actual st.disk s.1 s.2 ∧ ∀ (i : Nat) (e : Entry) (w : AW), s.1[i]? = some e → s.2[i]? = some w →
          e.Fits actual w.d.ndim) st.mds mds ∧
      (mds.flatten.map Prod.snd).flatten = a.secs.flatten := by
  obtain ⟨g, hi⟩ := reach_inv h
  have hm : ∀ secs ∈ g.mdx, ∀ xs ∈ secs, ∀ x ∈ xs, x ∈ g.mdx.flatten.flatten := by
    intro secs h1 xs h2 x h3
    exact List.mem_flatten.mpr ⟨xs, List.mem_flatten.mpr ⟨secs, h1, h2⟩, h3⟩
  have hrec : ∀ secs ∈ g.mdx, ∀ xs ∈ secs, ∀ x ∈ xs, Spec.Recordable cfg x.1 x.2.foff := by
    intro secs h1 xs h2 x hx
    exact recordable_of (hi.wokm x (hm _ h1 _ h2 _ hx)).1 (hi.foff _ (hm _ h1 _ h2 _ hx)).1 (hi.foff _ (hm _ h1 _ h2 _ hx)).2
  refine ⟨g.mdx.map (fun secs => secs.map (fun xs => (xs.map (entryOf cfg), xs.map (·.1)))), ?_, ?_⟩
  · rw [List.forall₂_map_right_iff, List.forall₂_iff_get]
    refine ⟨hi.md.length_eq, ?_⟩
    intro k k1 k2
    simp only [List.get_eq_getElem]
    have hmd := (List.forall₂_iff_get.mp hi.md).2 k k1 k2
    simp only [List.get_eq_getElem] at hmd
    have hmem : g.mdx[k] ∈ g.mdx := List.getElem_mem k2
    have hsm := hi.small (st.mds[k]'k1) (by simp)
    have hsec : ∀ xs ∈ g.mdx[k], IsSection cfg xs := fun xs hx => (hi.sec xs (List.mem_flatten.mpr ⟨_, hmem, hx⟩)).1
    have hsize : ∀ xs ∈ g.mdx[k], msize xs < 2 ^ 63 := by
      intro xs hx
      have h1 := congrArg List.length hmd.bytes
      simp only [fileBytes, List.length_map, List.length_range, mdContent, List.length_append, List.length_flatten] at h1
      obtain ⟨p, q, e⟩ := List.append_of_mem hx
      rw [e] at h1
      simp only [List.map_append, List.map_cons, List.sum_append, List.sum_cons, mbytes_length] at h1
      omega
    have hne : ∀ xs ∈ g.mdx[k], ∀ x ∈ xs, x.1.bs ≠ [] := fun xs hx x hxx => (hrec _ hmem _ hx x hxx).sel.ne
    refine ⟨?_, ?_⟩
    · rw [hmd.bytes, ← text_eq hsec hne hsize, List.map_map]
      rfl
    · intro s hs
      obtain ⟨xs, hx, rfl⟩ := List.mem_map.mp hs
      have hget : ∀ (i : Nat) (e : Entry) (w : AW), (xs.map (entryOf cfg))[i]? = some e → (xs.map (·.1))[i]? = some w →
          ∃ pre x post, xs = pre ++ x :: post ∧ pre.length = i ∧ e = entryOf cfg x ∧ w = x.1 := by
        intro i e w he hw
        have hl : i < xs.length := by
          by_contra hc
          rw [List.getElem?_eq_none (by simp; omega)] at he
          cases he
        refine ⟨xs.take i, xs[i], xs.drop (i + 1), ?_, by simp; omega, ?_, ?_⟩
        · rw [← List.drop_eq_getElem_cons hl, List.take_append_drop]
        · rw [List.getElem?_map, List.getElem?_eq_getElem hl] at he
          simp only [Option.map_some, Option.some.injEq] at he
          exact he.symm
        · rw [List.getElem?_map, List.getElem?_eq_getElem hl] at hw
          simp only [Option.map_some, Option.some.injEq] at hw
          exact hw.symm
      refine ⟨⟨by simp, ?_⟩, ?_⟩
      · intro i e w he hw
        obtain ⟨pre, x, post, e1, e2, rfl, rfl⟩ := hget i e w he hw
        have hxx : x ∈ xs := by rw [e1]; simp
        have hse := hsec xs hx pre x post e1
        have hh := secElem_hdr hse
        have hxm := hm _ hmem _ hx x hxx
        have hfo := hi.foff x hxm
        have hls : loc x ∈ g.ls := hi.perm.mem_iff.mpr (List.mem_map_of_mem (by simp only [List.mem_append]; exact Or.inl hxm))
        refine ⟨hh.1, ?_, hfo.1, ?_, ?_⟩
        · show (x.2.data.length : Int) = _
          rw [hh.2.1]
        · apply List.ext_getElem
          · simp [fileBytes]
          · intro j j1 j2
            simp only [fileBytes, List.getElem_map, List.getElem_range]
            exact hi.sto _ hls j j2
        · have hsel := selects_of (cfg := cfg) (pre := pre) (post := post) (x := x) (by rw [← e1]; exact hsec xs hx)
            (fun y hy => (hrec _ hmem _ hx y (by rw [e1]; exact hy)).awf) (by rw [← e1]; exact hsize xs hx)
          rw [← e1, e2] at hsel
          exact hsel
      · intro i e w he hw
        obtain ⟨pre, x, post, e1, e2, rfl, rfl⟩ := hget i e w he hw
        have hxx : x ∈ xs := by rw [e1]; simp
        have hs1 := hsize xs hx
        rw [e1, msize_append] at hs1
        exact entryOf_fits (hsec xs hx pre x post e1) (hrec _ hmem _ hx x hxx) (by omega)
  · rw [← hi.ord.2, ← List.map_flatten, List.map_map]
    rfl

/-- **C91, readable.** Given the number of dimensions of the datasets, a text of the format is the text of one list of entries only. -/
theorem C91_readable {nd : Nat → Nat} {ss ss' : List (List Entry)} (h : ∀ es ∈ ss, ∀ e ∈ es, e.Fits actual (nd e.did))
    (h' : ∀ es ∈ ss', ∀ e ∈ es, e.Fits actual (nd e.did)) (hs : (text actual ss).length < 2 ^ 63)
    (ht : text actual ss = text actual ss') : ss = ss' :=
  text_inj h h' hs ht

/-- **C91, meaning.** An entry selects at most one list of blocks, references included. -/
theorem C91_meaning {v : Dialect} {es : List Entry} {i : Nat} {bs bs' : List Blk} (h : Selects v es i bs)
    (h' : Selects v es i bs') : bs = bs' :=
  selects_unique h h'

/-- **C91, recovery.** Whoever reads the metadata datasets by the format finds the writes: as long as the datasets written to are there, any
entries whose texts are the contents of the metadata datasets describe all writes flushed to them, in the order in which the
processes issued them, and no others. -/
theorem C91_recover {cfg : Cfg} {st : FState} {a : AFile} (h : Reach cfg st a)
    (hp : ∀ w ∈ a.secs.flatten, ∃ d, a.dsets[w.did]? = some (some d)) {rd : List (List (List Entry))}
    (hr : List.Forall₂ (fun m ss => fileBytes st.disk m.addr m.size = text actual ss ∧
      ∀ es ∈ ss, ∀ e ∈ es, e.Fits actual (ndimOf a.dsets e.did)) st.mds rd) :
    ∃ wss, List.Forall₂ (Describes actual st.disk) rd.flatten wss ∧ wss.flatten = a.secs.flatten := by
  obtain ⟨mds, h1, h2⟩ := C91_written h
  obtain ⟨g, hi⟩ := reach_inv h
  have hnd : ∀ w ∈ a.secs.flatten, ndimOf a.dsets w.did = w.d.ndim := by
    intro w hw
    obtain ⟨d, hd⟩ := hp w hw
    rw [← hi.ord.2, ← List.map_flatten] at hw
    obtain ⟨x, hx, rfl⟩ := List.mem_map.mp hw
    have := ((hi.wokm x hx).2.same d (by rw [hi.dsets]; exact hd)).1
    unfold ndimOf
    rw [hd]
    exact this
  have hmem : ∀ ss ∈ mds, ∀ s ∈ ss, ∀ w ∈ s.2, w ∈ a.secs.flatten := by
    intro ss m1 s m2 w m3
    rw [← h2]
    exact List.mem_flatten.mpr ⟨s.2, List.mem_map.mpr ⟨s, List.mem_flatten.mpr ⟨ss, m1, m2⟩, rfl⟩, m3⟩
  have heq : rd = mds.map (fun ss => ss.map Prod.fst) := by
    apply List.ext_getElem
    · rw [List.length_map, ← h1.length_eq, hr.length_eq]
    · intro k k1 k2
      have k3 : k < mds.length := by simpa using k2
      have k4 : k < st.mds.length := by rw [hr.length_eq]; exact k1
      have g1 := (List.forall₂_iff_get.mp h1).2 k k4 k3
      have g2 := (List.forall₂_iff_get.mp hr).2 k k4 k1
      simp only [List.get_eq_getElem] at g1 g2
      rw [List.getElem_map]
      have hmk : mds[k] ∈ mds := List.getElem_mem k3
      refine C91_readable (nd := ndimOf a.dsets) g2.2 ?_ ?_ (g2.1.symm.trans g1.1)
      · intro es hes e he
        obtain ⟨s, hs, rfl⟩ := List.mem_map.mp hes
        obtain ⟨d1, d2⟩ := g1.2 s hs
        obtain ⟨i, i1, i2⟩ := List.mem_iff_getElem.mp he
        have i3 : i < s.2.length := by rw [← d1.len]; exact i1
        have he' : s.1[i]? = some e := by rw [List.getElem?_eq_getElem i1, i2]
        have hw' : s.2[i]? = some s.2[i] := List.getElem?_eq_getElem i3
        have hf := d2 i e _ he' hw'
        have hd := (d1.each i e _ he' hw').1
        rw [hd, hnd _ (hmem _ hmk s hs _ (List.getElem_mem i3))]
        exact hf
      · rw [← g2.1]
        have := hi.small st.mds[k] (by simp)
        simp only [fileBytes, List.length_map, List.length_range]
        omega
  refine ⟨mds.flatten.map Prod.snd, ?_, h2⟩
  rw [heq, ← List.map_flatten, List.forall₂_map_left_iff, List.forall₂_map_right_iff, List.forall₂_same]
  intro s hs
  obtain ⟨ss, m1, m2⟩ := List.mem_flatten.mp hs
  obtain ⟨k, k1, k2⟩ := List.mem_iff_getElem.mp m1
  have k4 : k < st.mds.length := by rw [h1.length_eq]; exact k1
  have g1 := (List.forall₂_iff_get.mp h1).2 k k4 k1
  simp only [List.get_eq_getElem, k2] at g1
  exact (g1.2 s m2).1

/-- **C91 is violated: the header.** No metadata dataset below 2 GB follows the documented format, however entries are laid out: the number
of processes takes 8 bytes, not 4. What a reader of the documented format takes for the size of the first entry is zero. -/
theorem C91_header_violated {cfg : Cfg} {st : FState} {a : AFile} (h : Reach cfg st a) {m : Ext} (hm : m ∈ st.mds)
    (hs : m.size < 2 ^ 31) {v : Dialect} (hv : v.word = 4) {ss : List (List Entry)} (hl : ss.length < 2 ^ 31)
    (hf : ∀ es ∈ ss, ∀ e ∈ es, 28 + (e.body v).length < 2 ^ 31) : text v ss ≠ fileBytes st.disk m.addr m.size := by
  obtain ⟨mds, h1, _⟩ := C91_written h
  obtain ⟨k, k1, k2⟩ := List.mem_iff_getElem.mp hm
  have k3 : k < mds.length := by rw [← h1.length_eq]; exact k1
  have g1 := (List.forall₂_iff_get.mp h1).2 k k1 k3
  simp only [List.get_eq_getElem, k2] at g1
  rw [g1.1]
  refine word4_ne hv ?_ hl hf
  rw [← g1.1]
  simpa [fileBytes] using hs

/-- **C91 is violated: the end offsets.** Even with the number of processes corrected, no metadata dataset below 2 GB follows the documented
format: there is an end offset of process 0 as well. -/
theorem C91_ends_violated {cfg : Cfg} {st : FState} {a : AFile} (h : Reach cfg st a) {m : Ext} (hm : m ∈ st.mds)
    (hs : m.size < 2 ^ 31) {v : Dialect} (hv : v.word = 8) (he : v.ends0 = false) {ss : List (List Entry)} (hl : ss.length < 2 ^ 63)
    (hf : ∀ es ∈ ss, ∀ e ∈ es, 28 + (e.body v).length < 2 ^ 31) : text v ss ≠ fileBytes st.disk m.addr m.size := by
  obtain ⟨g, hi⟩ := reach_inv h
  obtain ⟨mds, h1, _⟩ := C91_written h
  obtain ⟨k, k1, k2⟩ := List.mem_iff_getElem.mp hm
  have k3 : k < mds.length := by rw [← h1.length_eq]; exact k1
  have g1 := (List.forall₂_iff_get.mp h1).2 k k1 k3
  simp only [List.get_eq_getElem, k2] at g1
  rw [g1.1]
  refine noends0_ne hv he ?_ ?_ hl hf
  · intro hc
    -- an empty list of sections would take 8 bytes
    have k5 : k < g.mdx.length := by rw [← hi.md.length_eq]; exact k1
    have hmd := (List.forall₂_iff_get.mp hi.md).2 k k1 k5
    simp only [List.get_eq_getElem, k2] at hmd
    have e1 := congrArg List.length (hmd.bytes.symm.trans g1.1)
    rw [hc] at e1
    have hpos := hmd.pos
    simp only [mdContent, List.length_append, putWords_length, List.length_cons, inscan_ends, secEnds_length, List.length_map] at e1
    have e2 : (text actual ([] : List (List Entry))).length = 8 := by decide
    rw [e2] at e1
    omega
  · rw [← g1.1]
    simpa [fileBytes] using hs

/-- **C91, entries of one block.** Entries of one block that is not confined to a record, and references, are as documented. -/
theorem C91_entry_partial {e : Entry} (n : Bool) (h : (∃ b, e.sel = .single b ∧ e.recnum = none) ∨ e.sel.isRef = true) :
    e.text (documented n) = e.text actual := by
  have hb : e.body (documented n) = e.body actual := by
    unfold Entry.body
    rcases h with ⟨b, h1, h2⟩ | h
    · rw [h1, h2]
      simp [Sel.text, coords, documented, actual]
    · obtain ⟨d, r, s, f, z⟩ := e
      cases s <;> simp_all [Sel.isRef, Sel.text]
  unfold Entry.text
  rw [hb]

/-- **C91 is violated: order of the coordinates.** In an entry of two blocks all starts come before all counts; it is as documented only if
the start of the second block happens to be the count of the first. -/
theorem C91_order_violated {n : Nat} {b c : Blk} (hb : Spec.BlkOK n b) (hc : Spec.BlkOK n c) (v : Dialect) (hv : v.grouped = false)
    (isRec : Bool) :
    (Sel.multi [b, c]).text v isRec = (Sel.multi [b, c]).text actual isRec ↔ c.start = b.count := by
  have h1 : coords v [b, c] = b.start ++ (b.count ++ (c.start ++ c.count)) := by simp [coords, hv]
  have h2 : coords actual [b, c] = b.start ++ (c.start ++ (b.count ++ c.count)) := by simp [coords, actual]
  unfold Sel.text
  constructor
  · intro h
    have h3 := List.append_cancel_left h
    have hm : ∀ x : Nat, x ∈ b.start ∨ x ∈ b.count ∨ x ∈ c.start ∨ x ∈ c.count → x < 2 ^ 64 := by
      rintro x (hx | hx | hx | hx)
      · exact hb.s64 x hx
      · exact hb.c64 x hx
      · exact hc.s64 x hx
      · exact hc.c64 x hx
    have h4 := ints_inj (by
      intro w hw; rw [h1] at hw; simp only [List.mem_append] at hw; exact hm w hw) (by
      intro w hw; rw [h2] at hw; simp only [List.mem_append] at hw
      rcases hw with hw | hw | hw | hw
      · exact hm w (Or.inl hw)
      · exact hm w (Or.inr (Or.inr (Or.inl hw)))
      · exact hm w (Or.inr (Or.inl hw))
      · exact hm w (Or.inr (Or.inr (Or.inr hw)))) h3
    rw [h1, h2] at h4
    have h5 := List.append_cancel_left h4
    exact (List.append_inj h5 (by rw [hb.hc, hc.hs])).1.symm
  · intro h
    show int 4 _ ++ ints (coords v [b, c]) = int 4 _ ++ ints (coords actual [b, c])
    rw [h1, h2, h]

/-- **C91 is violated: records.** An entry of one block of a record has no `nsel`. -/
theorem C91_record_violated (v : Dialect) (hv : v.recCount = true) (e : Entry) (b : Blk) (h : e.sel = .single b)
    (hr : e.recnum.isSome = true) : e.text v ≠ e.text actual := by
  intro hc
  have h1 := congrArg List.length hc
  rw [text_length, text_length] at h1
  unfold Entry.body at h1
  rw [h, hr] at h1
  have h2 : ∀ v' : Dialect, (coords v' [b]).length = b.start.length + b.count.length := by
    intro v'
    unfold coords
    split <;> simp
  simp only [List.length_append, Sel.text, Bool.true_and, hv, if_true, ints_length, h2, int_length] at h1
  simp [actual] at h1

/-- **C91 is violated: encoded ends.** The second number of an encoded block is its length; it is the end only for blocks that start at the
origin. -/
theorem C91_code_violated (v : Dialect) (h1 : v.codedEnd = true) (ws : List Nat) (b : Blk) :
    code2 v ws b = code2 actual ws b ↔ code1 ws b = 0 := by
  simp only [code2, code1, h1, if_true, actual, Bool.false_eq_true, if_false]
  omega

/-! ### Examples -/

/-- Contents of the metadata dataset of a file of two processes. -/
def fmtSecs : List (List Entry) :=
  [[⟨0, none, .coded [6] [⟨[0, 0], [1, 2]⟩, ⟨[2, 1], [1, 2]⟩], 1000, 8⟩], [⟨0, none, .single ⟨[0, 1], [3, 1]⟩, 2000, 6⟩]]

theorem fmtSecs_fits : ∀ es ∈ fmtSecs, ∀ e ∈ es, e.Fits actual (ndimOf (fxFile.prepare true).dsets e.did) := by
  intro es hes e he
  have : ndimOf (fxFile.prepare true).dsets 0 = 2 := by decide
  simp only [fmtSecs, List.mem_cons, List.not_mem_nil, or_false] at hes
  rcases hes with rfl | rfl
  · simp only [List.mem_cons, List.not_mem_nil, or_false] at he
    subst he
    rw [this]
    refine ⟨by decide +kernel, by decide, by decide, by decide, (by intro k hk; cases hk), ?_⟩
    refine ⟨by decide, by decide, rfl, by decide, ?_⟩
    intro b hb
    simp only [List.mem_cons, List.not_mem_nil, or_false] at hb
    rcases hb with rfl | rfl
    · exact ⟨rfl, rfl, by decide, by decide, ⟨by decide, trivial⟩, ⟨by decide, trivial⟩⟩
    · exact ⟨rfl, rfl, by decide, by decide, ⟨by decide, trivial⟩, ⟨by decide, trivial⟩⟩
  · simp only [List.mem_cons, List.not_mem_nil, or_false] at he
    subst he
    rw [this]
    exact ⟨by decide +kernel, by decide, by decide, by decide, (by intro k hk; cases hk), ⟨rfl, rfl, by decide, by decide⟩⟩

/-- A file that meets the hypotheses of `C91_recover`, `C91_header_violated` and `C91_ends_violated`. -/
example : ∃ st, Reach ⟨true, true⟩ st (fxFile.prepare true) ∧ st.mds = [⟨3000, 156⟩] ∧
    (∀ w ∈ (fxFile.prepare true).secs.flatten, ∃ d, (fxFile.prepare true).dsets[w.did]? = some (some d)) ∧
    (fxFile.prepare true).secs.flatten = [fxA, fxB] ∧
    List.Forall₂ (fun m ss => fileBytes st.disk m.addr m.size = text actual ss ∧
      ∀ es ∈ ss, ∀ e ∈ es, e.Fits actual (ndimOf (fxFile.prepare true).dsets e.did)) st.mds [fmtSecs] := by
  have h : okWith (fun st => okWith (fun st1 => decide (Spec.Small st1 ∧ Spec.Fresh st 2000 ∧ Spec.Fresh st 3000 ∧
      st1.mds = [⟨3000, 156⟩] ∧ fileBytes st1.disk 3000 156 = text actual fmtSecs)) (st.prepare true 2000 3000))
      (fxRun ⟨true, true⟩ false none) = true := by
    decide +kernel
  obtain ⟨st, h1, h2⟩ := okWith_iff h
  obtain ⟨st1, h3, h4⟩ := okWith_iff h2
  rw [decide_eq_true_eq] at h4
  obtain ⟨a1, a2, a3, a4, a5⟩ := h4
  refine ⟨st1, Reach.prepare true 2000 3000 (fx_reach h1) a2 a3 (by decide) (Or.inl rfl) h3 a1, a4, ?_, by decide, ?_⟩
  · have hs : (fxFile.prepare true).secs.flatten = [fxA, fxB] := by decide
    intro w hw
    rw [hs] at hw
    simp only [List.mem_cons, List.not_mem_nil, or_false] at hw
    rcases hw with rfl | rfl
    · exact ⟨fxD, rfl⟩
    · exact ⟨fxD, rfl⟩
  · rw [a4]
    exact List.Forall₂.cons ⟨a5, fmtSecs_fits⟩ List.Forall₂.nil

/-- The same file read in the documented format: the size of the first entry would be zero. -/
example : ((text actual fmtSecs).drop 12).take 4 = [0, 0, 0, 0] := by decide +kernel

/-- Two blocks for which the order matters. -/
example : (Sel.multi [⟨[0, 0], [1, 2]⟩, ⟨[2, 1], [1, 2]⟩]).text (documented true) false ≠
    (Sel.multi [⟨[0, 0], [1, 2]⟩, ⟨[2, 1], [1, 2]⟩]).text actual false := by decide +kernel

/-- A reference to the same blocks of another record. -/
example : Selects actual [⟨0, some 3, .single ⟨[1], [2]⟩, 100, 4⟩, ⟨0, some 5, .ref false false (-52), 104, 4⟩] 1 [⟨[5, 1], [1, 2]⟩] := by
  have h0 := Selects.own (v := actual) (es := [⟨0, some 3, .single ⟨[1], [2]⟩, 100, 4⟩, ⟨0, some 5, .ref false false (-52), 104, 4⟩])
    (i := 0) (bs := [⟨[1], [2]⟩]) rfl rfl
  exact Selects.ref (i := 1) (j := 0) rfl rfl (by decide) (by decide +kernel) h0

end Verif.Props
