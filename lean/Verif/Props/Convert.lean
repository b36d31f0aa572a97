import Verif.Spec.Convert

/-
C88: transfers with another type in memory than in the dataset.
-/

namespace Verif.Props

open Verif Verif.Convert
open Verif.Spec.Convert (Moved Sized Proper Covers)

namespace Convert

/-! ### Members -/

theorem member_none {ms : List (Nat × Atom)} {k : Nat} : ∀ {x : List Byte}, member ms k x = none ↔ ∀ a, (k, a) ∉ ms := by
  induction ms with
  | nil => intro x; simp [member]
  | cons p ms ih =>
    obtain ⟨j, a⟩ := p
    intro x
    by_cases h : j = k
    · simp only [member, h, if_true]
      constructor
      · intro h; cases h
      · intro h'; exact absurd List.mem_cons_self (h' a)
    · simp only [member, h, if_false, ih, List.mem_cons, Prod.mk.injEq, not_or]
      constructor
      · intro h' b; exact ⟨fun e => h e.1.symm, h' b⟩
      · intro h' b; exact (h' b).2

theorem member_lookup {ms : List (Nat × Atom)} {k : Nat} : ∀ (x : List Byte), (member ms k x).map (·.1) = ms.lookup k := by
  induction ms with
  | nil => intro x; rfl
  | cons p ms ih =>
    obtain ⟨j, a⟩ := p
    intro x
    by_cases h : j = k
    · subst h
      simp [member, List.lookup]
    · have : (k == j) = false := by simpa using fun e => h e.symm
      simp only [member, h, if_false, ih, List.lookup, this]

/-- The member of the result of the conversion. -/
theorem members_get {L : Lib} (hL : Sized L) {ms : List (Nat × Atom)} {x : List Byte} : ∀ {ds : List (Nat × Atom)} {bg r : List Byte},
    L.members ms x ds bg = some r → membersSize ds ≤ bg.length → (ds.map (·.1)).Nodup →
    r.length = membersSize ds ∧ ∀ k b, (k, b) ∈ ds → ∃ v, member ds k r = some (b, v) ∧
      match member ms k x with
      | some (a, y) => ∃ f, L.conv a b = some f ∧ v = f y
      | none => member ds k bg = some (b, v)
  | [], bg, r, h, _, _ => by
    simp only [Lib.members, Option.some.injEq] at h
    subst h
    exact ⟨rfl, fun k b h => by cases h⟩
  | (j, c) :: ds, bg, r, h, hb, hn => by
    simp only [membersSize, List.map_cons, List.sum_cons] at hb
    rw [List.map_cons, List.nodup_cons] at hn
    rw [Lib.members, Option.bind_eq_bind, Option.bind_eq_some_iff] at h
    obtain ⟨v, hv, h⟩ := h
    rw [Option.bind_eq_some_iff] at h
    obtain ⟨q, hq, h⟩ := h
    simp only [Option.some.injEq] at h
    subst h
    have hvl : v.length = c.size := by
      revert hv
      cases member ms j x with
      | none => intro hv; simp only [Lib.value, Option.some.injEq] at hv; subst hv; rw [List.length_take]; omega
      | some p =>
        intro hv
        obtain ⟨f, hf, rfl⟩ := Option.map_eq_some_iff.mp hv
        exact hL _ _ _ hf _
    obtain ⟨i1, i2⟩ := members_get hL hq (by simp only [membersSize, List.length_drop]; omega) hn.2
    refine ⟨by simp only [List.length_append, hvl, i1, membersSize, List.map_cons, List.sum_cons], ?_⟩
    intro k b hk
    by_cases hjk : j = k
    · subst hjk
      have : b = c := by
        rcases List.mem_cons.mp hk with e | e
        · cases e; rfl
        · exact absurd (List.mem_map_of_mem (f := (·.1)) e) hn.1
      subst this
      refine ⟨v, ?_, ?_⟩
      · simp only [member, if_true]
        rw [← hvl, List.take_left]
      · revert hv
        cases member ms j x with
        | none =>
          intro hv
          simp only [Lib.value, Option.some.injEq] at hv
          subst hv
          simp only [member, if_true]
        | some p =>
          intro hv
          obtain ⟨f, hf, rfl⟩ := Option.map_eq_some_iff.mp hv
          exact ⟨f, hf, rfl⟩
    · have hk' : (k, b) ∈ ds := by
        rcases List.mem_cons.mp hk with e | e
        · cases e; exact absurd rfl hjk
        · exact e
      obtain ⟨w, w1, w2⟩ := i2 k b hk'
      refine ⟨w, ?_, ?_⟩
      · simp only [member, hjk, if_false]
        rw [← hvl, List.drop_left]
        exact w1
      · simp only [member, hjk, if_false]
        exact w2

theorem members_some {L : Lib} {ms : List (Nat × Atom)} {x : List Byte} : ∀ {ds : List (Nat × Atom)} (bg : List Byte),
    (ds.all fun d => (ms.lookup d.1).all fun a => (L.conv a d.2).isSome) = true → ∃ r, L.members ms x ds bg = some r
  | [], bg, _ => ⟨[], rfl⟩
  | (j, c) :: ds, bg, h => by
    rw [List.all_cons, Bool.and_eq_true] at h
    obtain ⟨r, hr⟩ := members_some (x := x) (bg.drop c.size) h.2
    have h1 := h.1
    rw [← member_lookup x] at h1
    cases hm : member ms j x with
    | none => exact ⟨_, by simp only [Lib.members, Lib.value, hm, hr]; rfl⟩
    | some p =>
      rw [hm] at h1
      obtain ⟨f, hf⟩ := Option.isSome_iff_exists.mp h1
      exact ⟨_, by simp only [Lib.members, Lib.value, hm, hr, hf]; rfl⟩

/-! ### Elements -/

theorem elem_some {L : Lib} {src dst : CType} (h : L.path src dst = true) (x bg : List Byte) : ∃ r, L.elem src dst x bg = some r := by
  cases src with
  | atom a => cases dst with
    | atom b =>
      obtain ⟨f, hf⟩ := Option.isSome_iff_exists.mp h
      exact ⟨_, by simp only [Lib.elem, hf]; rfl⟩
    | compound ds => cases h
  | compound ms => cases dst with
    | atom b => cases h
    | compound ds => exact members_some bg h

theorem elem_moved {L : Lib} (hL : Sized L) {src dst : CType} (hp : Proper dst) {x bg r : List Byte} (h : L.elem src dst x bg = some r)
    (hb : dst.isCompound = true → dst.size ≤ bg.length) : r.length = dst.size ∧ Moved L src dst x bg r := by
  cases src with
  | atom a => cases dst with
    | atom b =>
      obtain ⟨f, hf, rfl⟩ := Option.map_eq_some_iff.mp h
      exact ⟨hL _ _ _ hf _, f, hf, rfl⟩
    | compound ds => cases h
  | compound ms => cases dst with
    | atom b => cases h
    | compound ds =>
      have := members_get hL h (hb rfl) hp
      exact ⟨this.1, this⟩

/-- If the source has all members, the old value does not matter. -/
theorem moved_any {L : Lib} {src dst : CType} (hc : Covers src dst) {x old new : List Byte} (h : Moved L src dst x old new)
    (old' : List Byte) : Moved L src dst x old' new := by
  cases src with
  | atom a => cases dst with
    | atom b => exact h
    | compound ds => cases h
  | compound ms => cases dst with
    | atom b => cases h
    | compound ds =>
      refine ⟨h.1, fun k b hk => ?_⟩
      obtain ⟨v, h1, h2⟩ := h.2 k b hk
      refine ⟨v, h1, ?_⟩
      cases hm : member ms k x with
      | none =>
        obtain ⟨a, ha⟩ := hc k b hk
        exact absurd ha (member_none.mp hm a)
      | some p => rw [hm] at h2; exact h2

/-! ### Arrays of elements -/

theorem mapM_range {f : Nat → Option (List Byte)} (h : ∀ i, ∃ r, f i = some r) : ∀ (l : List Nat), ∃ es, l.mapM f = some es ∧
    es.length = l.length ∧ ∀ (i : Nat) (hi : i < l.length), f l[i] = es[i]?
  | [] => ⟨[], rfl, rfl, fun i hi => by cases hi⟩
  | j :: l => by
    obtain ⟨es, h1, h2, h3⟩ := mapM_range h l
    obtain ⟨r, hr⟩ := h j
    refine ⟨r :: es, by simp only [List.mapM_cons, hr, h1]; rfl, by simp [h2], ?_⟩
    intro i hi
    cases i with
    | zero => simpa using hr
    | succ i => simpa using h3 i (by simpa using hi)

theorem chunk_flatten {s : Nat} : ∀ {es : List (List Byte)}, (∀ e ∈ es, e.length = s) → es.flatten.length = es.length * s ∧
    ∀ (i : Nat) (hi : i < es.length), chunk s i es.flatten = es[i]
  | [], _ => ⟨by simp, fun i hi => by cases hi⟩
  | e :: es, h => by
    have he := h e List.mem_cons_self
    obtain ⟨h1, h2⟩ := chunk_flatten (s := s) (es := es) (fun e he => h e (List.mem_cons_of_mem _ he))
    refine ⟨by simp only [List.flatten_cons, List.length_append, he, h1, List.length_cons, Nat.add_mul, Nat.one_mul]; omega, ?_⟩
    intro i hi
    cases i with
    | zero =>
      simp only [chunk, Nat.zero_mul, List.drop_zero, List.flatten_cons, List.getElem_cons_zero]
      rw [← he, List.take_left]
    | succ i =>
      have : (i + 1) * s = e.length + i * s := by rw [he, Nat.add_mul, Nat.one_mul, Nat.add_comm]
      simp only [chunk, List.flatten_cons, List.getElem_cons_succ, this, ← List.drop_drop]
      rw [List.drop_left]
      exact h2 i (by simpa using hi)

theorem chunk_take {s i n : Nat} (hi : i < n) (bs : List Byte) (junk : List Byte) (hb : n * s ≤ bs.length) :
    chunk s i (bs.take (n * s) ++ junk) = chunk s i bs := by
  have h1 : i * s + s ≤ n * s := by
    have := Nat.mul_le_mul_right s (show i + 1 ≤ n by omega)
    rwa [Nat.add_mul, Nat.one_mul] at this
  simp only [chunk]
  rw [List.drop_append_of_le_length (by rw [List.length_take]; omega),
    List.take_append_of_le_length (by rw [List.length_drop, List.length_take]; omega), List.drop_take, List.take_take]
  congr 1
  omega

theorem chunk_length {s i n : Nat} (hi : i < n) (bs : List Byte) (hb : n * s ≤ bs.length) : (chunk s i bs).length = s := by
  have h1 : i * s + s ≤ n * s := by
    have := Nat.mul_le_mul_right s (show i + 1 ≤ n by omega)
    rwa [Nat.add_mul, Nat.one_mul] at this
  simp only [chunk, List.length_take, List.length_drop]
  omega

/-- A conversion of `n` elements. -/
theorem convert_ok {L : Lib} (hL : Sized L) {src dst : CType} (hp : Proper dst) (h : L.path src dst = true) (n : Nat) (buf : List Byte)
    (bg : Option (List Byte)) (hb : dst.isCompound = true → ∃ b, bg = some b ∧ n * dst.size ≤ b.length) :
    ∃ r, h5tconvert L src dst n buf bg = .ok (true, r) ∧ r.length = n * dst.size ∧
      ∀ i < n, Moved L src dst (chunk src.size i buf) (chunk dst.size i (bg.getD [])) (chunk dst.size i r) := by
  obtain ⟨es, h1, h2, h3⟩ := mapM_range (f := fun i => L.elem src dst (chunk src.size i buf) (chunk dst.size i (bg.getD [])))
    (fun i => elem_some h _ _) (List.range n)
  rw [List.length_range] at h2
  have h4 : ∀ i < n, ∃ e, es[i]? = some e ∧ e.length = dst.size ∧
      Moved L src dst (chunk src.size i buf) (chunk dst.size i (bg.getD [])) e := by
    intro i hi
    have h5 := h3 i (by simpa using hi)
    rw [List.getElem_range] at h5
    have h6 : es[i]? = some es[i] := List.getElem?_eq_getElem (by omega)
    rw [h6] at h5
    have h7 := elem_moved hL hp h5 (fun hc => by
      obtain ⟨b, rfl, hbl⟩ := hb hc
      rw [Option.getD_some, chunk_length hi b hbl]
      exact Nat.le_refl _)
    exact ⟨es[i], h6, h7⟩
  have h5 : ∀ e ∈ es, e.length = dst.size := by
    intro e he
    obtain ⟨i, hi, rfl⟩ := List.mem_iff_getElem.mp he
    obtain ⟨e', g1, g2, _⟩ := h4 i (by omega)
    rw [List.getElem?_eq_getElem hi] at g1
    cases g1
    exact g2
  obtain ⟨h6, h7⟩ := chunk_flatten h5
  refine ⟨es.flatten, ?_, by rw [h6, h2], ?_⟩
  · have : ¬ (0 < n ∧ dst.isCompound = true ∧ bg = none) := by
      rintro ⟨_, hc, hn⟩
      obtain ⟨b, hb', _⟩ := hb hc
      rw [hb'] at hn
      cases hn
    simp only [h5tconvert, h, if_true, this, if_false, h1]
  · intro i hi
    obtain ⟨e, g1, _, g3⟩ := h4 i hi
    rw [h7 i (by omega)]
    rw [List.getElem?_eq_getElem (by omega), Option.some.injEq] at g1
    rw [g1]
    exact g3

theorem write_ok {L : Lib} (hL : Sized L) {t m : CType} (hne : t ≠ m) (hp : Proper t) (h : L.path m t = true) (n : Nat)
    (buf junk bg : List Byte) (hb : n * m.size ≤ buf.length) (hg : bg.length = n * t.size) :
    ∃ s, dwrite L t m n buf junk bg = .ok s ∧ s.length = n * t.size ∧
      ∀ i < n, Moved L m t (chunk m.size i buf) (chunk t.size i bg) (chunk t.size i s) := by
  obtain ⟨r, h1, h2, h3⟩ := convert_ok hL hp h n (buf.take (n * m.size) ++ junk) (if t.isCompound then some bg else none)
    (fun hc => ⟨bg, by rw [if_pos hc], by omega⟩)
  refine ⟨r, ?_, h2, ?_⟩
  · simp only [dwrite, if_neg (Nat.not_lt.mpr hb), if_neg hne, h1, Res.ok_bind]
    rw [← h2, List.take_length]
  · intro i hi
    have := h3 i hi
    rw [chunk_take hi _ _ hb] at this
    cases t with
    | atom b =>
      cases m with
      | atom a => exact this
      | compound ms => exact this
    | compound ds => exact this

end Convert

/-- **C88, writes (partial).** With a type in memory that has a conversion to the type of the dataset and, for compounds, all its members, every
element stored is the converted element of the memory, whatever was in the dataset and in the buffers.  (Missing: compounds with fewer
members and types without a conversion, see `C88_members_violated` and `C88_silent_violated`.) -/
theorem C88_write_partial (L : Lib) (hL : Sized L) (t m : CType) (hne : t ≠ m) (hp : Proper t) (h : L.path m t = true) (hc : Covers m t)
    (n : Nat) (buf junk bg : List Byte) (hb : n * m.size ≤ buf.length) (hg : bg.length = n * t.size) :
    ∃ s, dwrite L t m n buf junk bg = .ok s ∧ s.length = n * t.size ∧
      ∀ i < n, ∀ old, Moved L m t (chunk m.size i buf) old (chunk t.size i s) := by
  obtain ⟨s, h1, h2, h3⟩ := Convert.write_ok hL hne hp h n buf junk bg hb hg
  exact ⟨s, h1, h2, fun i hi old => Convert.moved_any hc (h3 i hi) old⟩

/-- **C88, reads (partial).** Into another type that is not a compound: every element is converted.  Without a conversion the read fails. -/
theorem C88_read_partial (L : Lib) (hL : Sized L) (t m : CType) (hne : t ≠ m) (n : Nat) (stored : List Byte) :
    (m.isCompound = false → L.path t m = true → ∃ s, dread L t m n stored = .ok s ∧ s.length = n * m.size ∧
      ∀ i < n, ∀ old, Moved L t m (chunk t.size i stored) old (chunk m.size i s)) ∧
    (L.path t m = false → dread L t m n stored = .err) := by
  constructor
  · intro hm h
    have hp : Proper m := by
      cases m with
      | atom a => trivial
      | compound ds => cases hm
    obtain ⟨r, h1, h2, h3⟩ := Convert.convert_ok hL hp h n stored none (fun hc => by rw [hm] at hc; cases hc)
    refine ⟨r, by simp only [dread, if_neg hne, h1, Res.ok_bind, if_true], h2, fun i hi old => ?_⟩
    refine Convert.moved_any ?_ (h3 i hi) old
    cases m with
    | atom a => cases t <;> trivial
    | compound ds => cases hm
  · intro h
    simp [dread, hne, h5tconvert, h]

/-- **C88, equal types.** Bytes are stored and returned as they are. -/
theorem C88_same (L : Lib) (t : CType) (n : Nat) (buf junk bg : List Byte) (hb : n * t.size ≤ buf.length) :
    dwrite L t t n buf junk bg = .ok (buf.take (n * t.size)) ∧ dread L t t n (buf.take (n * t.size)) = .ok (buf.take (n * t.size)) := by
  refine ⟨?_, ?_⟩
  · simp only [dwrite, if_neg (Nat.not_lt.mpr hb), if_true]
  · simp only [dread, if_true]

/-- **C88, there and back (partial).** Elements of a type for which the conversion to the type of the dataset loses nothing come back. -/
theorem C88_back_partial (L : Lib) (hL : Sized L) (a b : Atom) (hne : b ≠ a) (f g : List Byte → List Byte) (hf : L.conv a b = some f)
    (hg : L.conv b a = some g) (n : Nat) (buf junk bg : List Byte) (hb : n * a.size ≤ buf.length) (hbg : bg.length = n * b.size)
    (hi : ∀ i < n, g (f (chunk a.size i buf)) = chunk a.size i buf) :
    ∃ s r, dwrite L (.atom b) (.atom a) n buf junk bg = .ok s ∧ dread L (.atom b) (.atom a) n s = .ok r ∧
      ∀ i < n, chunk a.size i r = chunk a.size i buf := by
  have hne' : CType.atom b ≠ CType.atom a := fun h => hne (by injection h)
  obtain ⟨s, h1, h2, h3⟩ := C88_write_partial L hL (.atom b) (.atom a) hne' trivial (by simp [Lib.path, hf]) trivial n buf junk bg hb hbg
  obtain ⟨r, h4, _, h5⟩ := (C88_read_partial L hL (.atom b) (.atom a) hne' n s).1 rfl (by simp [Lib.path, hg])
  refine ⟨s, r, h1, h4, fun i hin => ?_⟩
  obtain ⟨f', e1, e2⟩ := h3 i hin []
  obtain ⟨g', e3, e4⟩ := h5 i hin []
  rw [hf] at e1
  cases e1
  rw [hg] at e3
  cases e3
  simp only [CType.size] at e2 e4
  rw [e4, e2, hi i hin]

/-- **C88 is violated: some members only.** H5Dwrite of compounds that lack a member of the type of the dataset succeeds; the member does not keep
its value: it becomes whatever the memory given out by `malloc` held. -/
theorem C88_members_violated (L : Lib) (hL : Sized L) (ms ds : List (Nat × Atom)) (hp : (ds.map (·.1)).Nodup)
    (h : L.path (.compound ms) (.compound ds) = true) (k : Nat) (b : Atom) (hk : (k, b) ∈ ds) (hm : ∀ a, (k, a) ∉ ms)
    (n : Nat) (buf junk : List Byte) (hb : n * membersSize ms ≤ buf.length) :
    (∀ bg, bg.length = n * membersSize ds → ∃ s, dwrite L (.compound ds) (.compound ms) n buf junk bg = .ok s ∧
      ∀ i < n, member ds k (chunk (membersSize ds) i s) = member ds k (chunk (membersSize ds) i bg)) ∧
    ∀ i < n, 0 < b.size → ∀ old : List Byte, ∃ bg s, dwrite L (.compound ds) (.compound ms) n buf junk bg = .ok s ∧
      ¬ Moved L (.compound ms) (.compound ds) (chunk (membersSize ms) i buf) old (chunk (membersSize ds) i s) := by
  have hne : CType.compound ds ≠ CType.compound ms := fun e => by
    cases e
    exact hm b hk
  have key : ∀ bg, bg.length = n * membersSize ds → ∃ s, dwrite L (.compound ds) (.compound ms) n buf junk bg = .ok s ∧
      ∀ i < n, member ds k (chunk (membersSize ds) i s) = member ds k (chunk (membersSize ds) i bg) := by
    intro bg hg
    obtain ⟨s, h1, _, h3⟩ := Convert.write_ok hL hne hp h n buf junk bg hb hg
    refine ⟨s, h1, fun i hi => ?_⟩
    obtain ⟨v, w1, w2⟩ := (h3 i hi).2 k b hk
    have : member ms k (chunk (CType.compound ms).size i buf) = none := Convert.member_none.mpr hm
    rw [this] at w2
    exact w1.trans w2.symm
  refine ⟨key, fun i hi hb0 old => ?_⟩
  have rep : ∀ c : Byte, ∃ bg s, dwrite L (.compound ds) (.compound ms) n buf junk bg = .ok s ∧
      member ds k (chunk (membersSize ds) i s) = some (b, List.replicate b.size c) := by
    intro c
    obtain ⟨s, h1, h2⟩ := key (List.replicate (n * membersSize ds) c) (List.length_replicate ..)
    refine ⟨_, s, h1, ?_⟩
    rw [h2 i hi]
    have e : chunk (membersSize ds) i (List.replicate (n * membersSize ds) c) = List.replicate (membersSize ds) c := by
      have := Convert.chunk_length (s := membersSize ds) hi (List.replicate (n * membersSize ds) c) (by simp)
      simp only [chunk, List.drop_replicate, List.take_replicate, List.length_replicate] at this ⊢
      rw [this]
    rw [e]
    have : ∀ (l : List (Nat × Atom)), (l.map (·.1)).Nodup → (k, b) ∈ l →
        member l k (List.replicate (membersSize l) c) = some (b, List.replicate b.size c) := by
      intro l
      induction l with
      | nil => intro _ h; cases h
      | cons p l ih =>
        obtain ⟨j, d⟩ := p
        intro hn hkl
        rw [List.map_cons, List.nodup_cons] at hn
        by_cases hj : j = k
        · subst hj
          have : b = d := by
            rcases List.mem_cons.mp hkl with e | e
            · cases e; rfl
            · exact absurd (List.mem_map_of_mem (f := (·.1)) e) hn.1
          subst this
          simp only [member, if_true, List.take_replicate, membersSize, List.map_cons, List.sum_cons]
          rw [Nat.min_eq_left (by omega)]
        · have hk' : (k, b) ∈ l := by
            rcases List.mem_cons.mp hkl with e | e
            · cases e; exact absurd rfl hj
            · exact e
          simp only [member, hj, if_false, List.drop_replicate, membersSize, List.map_cons, List.sum_cons, Nat.add_sub_cancel_left]
          exact ih hn.2 hk'
    exact this ds hp hk
  obtain ⟨g0, s0, a0, b0⟩ := rep 0
  obtain ⟨g1, s1, a1, b1⟩ := rep 1
  have hno : member ms k (chunk (membersSize ms) i buf) = none := Convert.member_none.mpr hm
  by_cases hold : member ds k old = some (b, List.replicate b.size 0)
  · refine ⟨g1, s1, a1, fun hM => ?_⟩
    obtain ⟨v, w1, w2⟩ := hM.2 k b hk
    rw [hno] at w2
    have := (b1.symm.trans w1).trans (w2.symm.trans hold)
    simp only [Option.some.injEq, Prod.mk.injEq, true_and] at this
    obtain ⟨q, hq⟩ : ∃ q, b.size = q + 1 := ⟨b.size - 1, by omega⟩
    rw [hq, List.replicate_succ, List.replicate_succ] at this
    cases this
  · refine ⟨g0, s0, a0, fun hM => ?_⟩
    obtain ⟨v, w1, w2⟩ := hM.2 k b hk
    rw [hno] at w2
    exact hold (w2.trans (w1.symm.trans b0))

/-- **C88 is violated: no conversion.** H5Dwrite with a type that cannot be converted to the type of the dataset succeeds, and stores the bytes of the
memory as they are (with whatever follows them, if the elements of the memory are smaller). -/
theorem C88_silent_violated (L : Lib) (t m : CType) (hne : t ≠ m) (h : L.path m t = false) (n : Nat) (buf junk bg : List Byte)
    (hb : n * m.size ≤ buf.length) :
    dwrite L t m n buf junk bg = .ok ((buf.take (n * m.size) ++ junk).take (n * t.size)) ∧
    (t.size ≤ m.size → dwrite L t m n buf junk bg = .ok (buf.take (n * t.size))) ∧ dread L m t n buf = .err := by
  have e : dwrite L t m n buf junk bg = .ok ((buf.take (n * m.size) ++ junk).take (n * t.size)) := by
    simp [dwrite, Nat.not_lt.mpr hb, hne, h5tconvert, h]
  refine ⟨e, fun hs => ?_, by simp [dread, hne.symm, h5tconvert, h]⟩
  have := Nat.mul_le_mul_left n hs
  rw [e, List.take_append_of_le_length (by rw [List.length_take]; omega), List.take_take, Nat.min_eq_left this]

/-- **C88 is violated: reading compounds.** Reading any elements into a compound type other than that of the dataset, e.g. some of its members, is
undefined. -/
theorem C88_compound_violated (L : Lib) (t m : CType) (hne : t ≠ m) (hm : m.isCompound = true) (h : L.path t m = true) (n : Nat)
    (hn : 0 < n) (stored : List Byte) : dread L t m n stored = .ub := by
  simp [dread, hne, h5tconvert, h, hn, hm]

/-! ### Cases -/

/-- 1- and 2-byte numbers; strings (class 9) are not numbers. -/
def cvLib : Lib where
  conv a b := if a.cls = b.cls then some (fun x => x.take b.size ++ List.replicate (b.size - (x.take b.size).length) 0) else none

theorem cv_sized : Sized cvLib := by
  intro a b f h x
  simp only [cvLib] at h
  split at h
  · cases h
    simp only [List.length_append, List.length_take, List.length_replicate]
    omega
  · cases h

/-- Two bytes written to a dataset of 2-byte numbers and read back. -/
example : ∃ s r, dwrite cvLib (.atom ⟨1, 2⟩) (.atom ⟨1, 1⟩) 2 [5, 6] [9, 9] [0, 0, 0, 0] = .ok s ∧
    dread cvLib (.atom ⟨1, 2⟩) (.atom ⟨1, 1⟩) 2 s = .ok r ∧ ∀ i < 2, chunk 1 i r = chunk 1 i [5, 6] :=
  C88_back_partial cvLib cv_sized ⟨1, 1⟩ ⟨1, 2⟩ (by decide) _ _ rfl rfl 2 [5, 6] [9, 9] [0, 0, 0, 0] (by decide) (by decide) (by decide)

/-- Members in another order and of another size. -/
example : (cvLib.path (.compound [(1, ⟨1, 2⟩), (0, ⟨1, 1⟩)]) (.compound [(0, ⟨1, 2⟩), (1, ⟨1, 2⟩)]) = true ∧
      Covers (.compound [(1, ⟨1, 2⟩), (0, ⟨1, 1⟩)]) (.compound [(0, ⟨1, 2⟩), (1, ⟨1, 2⟩)]) ∧
      Proper (.compound [(0, ⟨1, 2⟩), (1, ⟨1, 2⟩)])) ∧
    dwrite cvLib (.compound [(0, ⟨1, 2⟩), (1, ⟨1, 2⟩)]) (.compound [(1, ⟨1, 2⟩), (0, ⟨1, 1⟩)]) 1 [5, 6, 7] [3] [8, 8, 8, 8] = .ok [7, 0, 5, 6] := by
  refine ⟨⟨by decide, ?_, by unfold Proper; decide⟩, by decide⟩
  intro k b hk
  simp only [List.mem_cons, Prod.mk.injEq, List.not_mem_nil, or_false] at hk
  rcases hk with ⟨rfl, rfl⟩ | ⟨rfl, rfl⟩
  · exact ⟨⟨1, 1⟩, by simp⟩
  · exact ⟨⟨1, 2⟩, by simp⟩

/-- Member 0 is written, member 1 is lost. -/
example : cvLib.path (.compound [(0, ⟨1, 2⟩)]) (.compound [(0, ⟨1, 2⟩), (1, ⟨1, 1⟩)]) = true ∧
    dwrite cvLib (.compound [(0, ⟨1, 2⟩), (1, ⟨1, 1⟩)]) (.compound [(0, ⟨1, 2⟩)]) 1 [5, 6] [0] [170, 170, 170] = .ok [5, 6, 170] := by decide

/-- Numbers to a dataset of strings. -/
example : cvLib.path (.atom ⟨1, 2⟩) (.atom ⟨9, 2⟩) = false ∧
    dwrite cvLib (.atom ⟨9, 2⟩) (.atom ⟨1, 2⟩) 1 [5, 6] [] [] = .ok [5, 6] := by decide

/-- One member of two is read. -/
example : dread cvLib (.compound [(0, ⟨1, 2⟩), (1, ⟨1, 1⟩)]) (.compound [(0, ⟨1, 2⟩)]) 1 [5, 6, 7] = .ub :=
  C88_compound_violated cvLib _ _ (by decide) rfl (by decide) 1 (by decide) _

end Verif.Props
