import Verif.Lemmas.Rows

namespace Verif
open Spec

/-! ### Groups -/

theorem groupFrom_cons (x : CRow) (r : List CRow) : ∃ h t, groupFrom x r = (x :: h) :: t := by
  cases r with
  | nil => exact ⟨[], [], rfl⟩
  | cons y r =>
    unfold groupFrom
    split
    · exact ⟨[], _, rfl⟩
    · exact ⟨_, _, rfl⟩

theorem groupFrom_flatten : ∀ (x : CRow) (r : List CRow), (groupFrom x r).flatten = x :: r
  | x, [] => rfl
  | x, y :: r => by
    have ih := groupFrom_flatten y r
    unfold groupFrom
    split
    · simp [ih]
    · obtain ⟨h, t, e⟩ := groupFrom_cons y r
      rw [e] at ih ⊢
      simpa using ih

theorem groupRows_flatten (l : List CRow) : (groupRows l).flatten = l := by
  cases l with
  | nil => rfl
  | cons x r => exact groupFrom_flatten x r

theorem groupFrom_ne : ∀ (x : CRow) (r : List CRow), ∀ g ∈ groupFrom x r, g ≠ []
  | x, [] => by simp [groupFrom]
  | x, y :: r => by
    have ih := groupFrom_ne y r
    intro g hg
    unfold groupFrom at hg
    split at hg
    · rcases List.mem_cons.mp hg with rfl | hg
      · simp
      · exact ih g hg
    · rcases List.mem_cons.mp hg with rfl | hg
      · simp
      · exact ih g (List.mem_of_mem_tail hg)

theorem groupRows_ne (l : List CRow) : ∀ g ∈ groupRows l, g ≠ [] := by
  cases l with
  | nil => simp [groupRows]
  | cons x r => exact groupFrom_ne x r

/-- Starts and ends are increasing in row-major order. -/
structure Ord (l : List CRow) : Prop where
  starts : l.Pairwise (fun a b => RowLt a.1 b.1)
  ends : l.Pairwise (fun a b => RowLt a.2 b.2)

theorem Ord.tail {x : CRow} {l : List CRow} (h : Ord (x :: l)) : Ord l :=
  ⟨(List.pairwise_cons.mp h.starts).2, (List.pairwise_cons.mp h.ends).2⟩

theorem Ord.sublist {l l' : List CRow} (h : Ord l) (h1 : List.Sublist (l'.map Prod.fst) (l.map Prod.fst))
    (h2 : List.Sublist (l'.map Prod.snd) (l.map Prod.snd)) : Ord l' :=
  ⟨List.pairwise_map.mp ((List.pairwise_map.mpr h.starts).sublist h1),
    List.pairwise_map.mp ((List.pairwise_map.mpr h.ends).sublist h2)⟩

/-- Blocks of different groups do not interleave: the test of adjacent blocks is sufficient. -/
theorem groupFrom_apart : ∀ (x : CRow) (r : List CRow), Ord (x :: r) →
    (groupFrom x r).Pairwise (fun g g' => ∀ a ∈ g, ∀ b ∈ g', RowLt a.2 b.1)
  | x, [], _ => by simp [groupFrom]
  | x, y :: r, h => by
    have ih := groupFrom_apart y r h.tail
    have hfl := groupFrom_flatten y r
    unfold groupFrom
    split
    · rename_i hlt
      rw [rowLt_iff] at hlt
      refine List.pairwise_cons.mpr ⟨?_, ih⟩
      intro g hg a ha b hb
      have ha' : a = x := by simpa using ha
      subst ha'
      have hb' : b ∈ y :: r := by rw [← hfl]; exact List.mem_flatten.mpr ⟨g, hg, hb⟩
      rcases List.mem_cons.mp hb' with rfl | hb'
      · exact hlt
      · exact hlt.trans ((List.pairwise_cons.mp h.tail.starts).1 b hb')
    · obtain ⟨g0, t, e⟩ := groupFrom_cons y r
      rw [e] at ih ⊢
      simp only [List.headD_cons, List.tail_cons]
      have ih' := List.pairwise_cons.mp ih
      refine List.pairwise_cons.mpr ⟨?_, ih'.2⟩
      intro g hg a ha b hb
      rcases List.mem_cons.mp ha with rfl | ha
      · exact ((List.pairwise_cons.mp h.ends).1 y (by simp)).trans (ih'.1 g hg y (by simp) b hb)
      · exact ih'.1 g hg a ha b hb

theorem groupRows_apart {l : List CRow} (h : Ord l) :
    (groupRows l).Pairwise (fun g g' => ∀ a ∈ g, ∀ b ∈ g', RowLt a.2 b.1) := by
  cases l with
  | nil => simp [groupRows]
  | cons x r => exact groupFrom_apart x r h

/-! ### Sorting -/

/-- The rows in the order computed by `std::sort`. -/
def sortL (srt : List (List Nat) → List Nat) (l : List CRow) : List CRow :=
  (srt (l.map Prod.fst)).map (fun i => l.getD i ([], []))

theorem sortL_perm {srt : List (List Nat) → List Nat} (hs : IsSort srt) (l : List CRow) : (sortL srt l).Perm l := by
  have h := (hs (l.map Prod.fst)).1
  rw [List.length_map] at h
  refine (h.map _).trans ?_
  have : (List.range l.length).map (fun i => l.getD i ([], [])) = l := by
    apply List.ext_getElem
    · simp
    · intro i h1 h2
      simp only [List.length_map, List.length_range] at h1
      simp [h1]
  rw [this]

theorem sortL_sorted {srt : List (List Nat) → List Nat} (hs : IsSort srt) (l : List CRow) :
    (sortL srt l).Pairwise (fun a b => ¬ RowLt b.1 a.1) := by
  have h := (hs (l.map Prod.fst)).2
  unfold sortL
  rw [List.pairwise_map]
  refine h.imp_of_mem ?_
  intro i j hi hj hij
  have hp := (hs (l.map Prod.fst)).1
  rw [List.length_map] at hp
  have hi' := List.mem_range.mp (hp.mem_iff.mp hi)
  have hj' := List.mem_range.mp (hp.mem_iff.mp hj)
  rw [← rowLt_iff]
  simp only [List.getD_eq_getElem?_getD, List.getElem?_map, List.getElem?_eq_getElem hi', List.getElem?_eq_getElem hj',
    Option.map_some, Option.getD_some] at hij ⊢
  simp [hij]

/-- Sorting keys that are strictly increasing leaves them in place. -/
theorem srt_id {srt : List (List Nat) → List Nat} (hs : IsSort srt) (ks : List (List Nat)) (h : ks.Pairwise RowLt) :
    srt ks = List.range ks.length := by
  obtain ⟨hp, ho⟩ := hs ks
  refine List.Perm.eq_of_pairwise (le := (· ≤ ·)) ?_ ?_ ?_ hp
  · intro a b _ _ h1 h2; omega
  · refine ho.imp_of_mem ?_
    intro i j hi hj hij
    have hi' := List.mem_range.mp (hp.mem_iff.mp hi)
    have hj' := List.mem_range.mp (hp.mem_iff.mp hj)
    by_contra hc
    have := List.pairwise_iff_getElem.mp h j i hj' hi' (by omega)
    simp only [List.getD_eq_getElem?_getD, List.getElem?_eq_getElem hi', List.getElem?_eq_getElem hj',
      Option.getD_some] at hij
    rw [← rowLt_iff] at this
    rw [this] at hij
    simp at hij
  · exact List.pairwise_lt_range.imp Nat.le_of_lt

/-- The least key stays first. -/
theorem srt_head {srt : List (List Nat) → List Nat} (hs : IsSort srt) (k : List Nat) (ks : List (List Nat))
    (h : ∀ x ∈ ks, RowLt k x) : (srt (k :: ks)).getD 0 0 = 0 := by
  obtain ⟨hp, ho⟩ := hs (k :: ks)
  cases e : srt (k :: ks) with
  | nil => rw [e] at hp; have := hp.length_eq; simp at this
  | cons i r =>
    rw [e] at hp ho
    simp only [List.getD_cons_zero]
    by_contra hi
    have h0 : 0 ∈ i :: r := hp.mem_iff.mpr (by simp)
    rcases List.mem_cons.mp h0 with h0 | h0
    · exact hi h0.symm
    · have := (List.pairwise_cons.mp ho).1 0 h0
      have hi' := List.mem_range.mp (hp.mem_iff.mp (List.mem_cons_self ..))
      obtain ⟨i', rfl⟩ : ∃ j, i = j + 1 := ⟨i - 1, by omega⟩
      simp only [List.length_cons] at hi'
      have hlt : i' < ks.length := by omega
      simp only [List.getD_eq_getElem?_getD, List.getElem?_cons_zero, List.getElem?_cons_succ,
        List.getElem?_eq_getElem hlt, Option.getD_some] at this
      have h2 := rowLt_iff.mpr (h ks[i'] (List.getElem_mem hlt))
      rw [this] at h2
      simp at h2

/-! ### Rows in order -/

theorem lines_apart : ∀ {n : Nat} {s c s' c' : List Nat}, 0 < n → s.length = n → c.length = n → s'.length = n → c'.length = n →
    OnesTo (n - 1) c → OnesTo (n - 1) c' → (∀ k ∈ c', 1 ≤ k) → RowLt s s' →
    (∀ x, ¬ (inBox s c x = true ∧ inBox s' c' x = true)) →
    ∀ u v, inBox s c u = true → inBox s' c' v = true → RowLt u v
  | 0, _, _, _, _, h, _, _, _, _, _, _, _, _, _ => absurd h (by omega)
  | 1, [s], [c], [s'], [c'], _, _, _, _, _, _, _, hp', hlt, hd => by
    intro u v hu hv
    have hp' := hp' c' (by simp)
    match u, v, hu, hv with
    | [u], [v], hu, hv =>
      simp only [inBox, Bool.and_eq_true, decide_eq_true_eq, Bool.and_true] at hu hv
      simp only [RowLt, and_false, or_false] at hlt ⊢
      by_contra hc
      exact hd [s'] ⟨by simp [inBox]; omega, by simp [inBox]; omega⟩
    | [], _, hu, _ => simp [inBox] at hu
    | _ :: _ :: _, _, hu, _ => simp [inBox] at hu
    | [_], [], _, hv => simp [inBox] at hv
    | [_], _ :: _ :: _, _, hv => simp [inBox] at hv
  | n + 2, s :: ss, c :: cs, s' :: ss', c' :: cs', _, h1, h2, h3, h4, ho, ho', hp', hlt, hd => by
    intro u v hu hv
    obtain ⟨rfl, ho⟩ := ho
    obtain ⟨rfl, ho'⟩ := ho'
    match u, v, hu, hv with
    | u :: us, v :: vs, hu, hv =>
      simp only [inBox, Bool.and_eq_true, decide_eq_true_eq] at hu hv
      simp only [RowLt] at hlt ⊢
      rcases hlt with hlt | ⟨rfl, hlt⟩
      · left; omega
      · right
        refine ⟨by omega, ?_⟩
        refine lines_apart (n := n + 1) (by omega) (by simpa using h1) (by simpa using h2) (by simpa using h3)
          (by simpa using h4) ho ho' (fun k hk => hp' k (by simp [hk])) hlt ?_ us vs hu.2 hv.2
        intro x hx
        exact hd (s :: x) ⟨by simp [inBox, hx.1], by simp [inBox, hx.2]⟩
    | [], _, hu, _ => simp [inBox] at hu
    | _ :: _, [], _, hv => simp [inBox] at hv
  | 1, [], _, _, _, _, h, _, _, _, _, _, _, _, _ => by simp at h
  | 1, _ :: _ :: _, _, _, _, _, h, _, _, _, _, _, _, _, _ => by simp at h
  | 1, [_], [], _, _, _, _, h, _, _, _, _, _, _, _ => by simp at h
  | 1, [_], _ :: _ :: _, _, _, _, _, h, _, _, _, _, _, _, _ => by simp at h
  | 1, [_], [_], [], _, _, _, _, h, _, _, _, _, _, _ => by simp at h
  | 1, [_], [_], _ :: _ :: _, _, _, _, _, h, _, _, _, _, _, _ => by simp at h
  | 1, [_], [_], [_], [], _, _, _, _, h, _, _, _, _, _ => by simp at h
  | 1, [_], [_], [_], _ :: _ :: _, _, _, _, _, h, _, _, _, _, _ => by simp at h
  | _ + 2, [], _, _, _, _, h, _, _, _, _, _, _, _, _ => by simp at h
  | _ + 2, _ :: _, [], _, _, _, _, h, _, _, _, _, _, _, _ => by simp at h
  | _ + 2, _ :: _, _ :: _, [], _, _, _, _, h, _, _, _, _, _, _ => by simp at h
  | _ + 2, _ :: _, _ :: _, _ :: _, [], _, _, _, _, h, _, _, _, _, _ => by simp at h

theorem inBox_start : ∀ {s c : List Nat}, s.length = c.length → (∀ k ∈ c, 1 ≤ k) → inBox s c s = true
  | [], [], _, _ => rfl
  | s :: ss, c :: cs, h, hp => by
    have := inBox_start (s := ss) (c := cs) (by simpa using h) (fun k hk => hp k (by simp [hk]))
    have := hp c (by simp)
    simp [inBox, *]
    omega
  | [], _ :: _, h, _ => by simp at h
  | _ :: _, [], h, _ => by simp at h

/-- Sorted rows without common cells: the cells are in row-major order. -/
theorem lines_sorted {n : Nat} (hn : 0 < n) {l : List CRow} (hl : ∀ r ∈ l, LineOK n r)
    (hs : l.Pairwise (fun a b => ¬ RowLt b.1 a.1)) (hd : (cellsL l).Nodup) : (cellsL l).Pairwise RowLt := by
  unfold cellsL at *
  rw [List.pairwise_flatMap]
  have hd' := List.nodup_flatMap.mp hd
  refine ⟨fun r hr => cells_sorted (by rw [(hl r hr).len, (hl r hr).len2]), ?_⟩
  refine (hs.and hd'.2).imp_of_mem ?_
  intro a b ha hb hab u hu v hv
  obtain ⟨h1, h2⟩ := hab
  have la := hl a ha
  have lb := hl b hb
  have hla : a.1.length = a.2.length := by rw [la.len, la.len2]
  have hlb : b.1.length = b.2.length := by rw [lb.len, lb.len2]
  have hdis : ∀ x, ¬ (inBox a.1 a.2 x = true ∧ inBox b.1 b.2 x = true) := by
    intro x hx
    exact h2 ((mem_cells hla).mpr hx.1) ((mem_cells hlb).mpr hx.2)
  have hlt : RowLt a.1 b.1 := by
    rcases rowLt_total (x := a.1) (y := b.1) (by rw [la.len, lb.len]) with h | h | h
    · exact h
    · exact absurd h h1
    · exfalso
      exact hdis a.1 ⟨inBox_start hla la.pos, by rw [h]; exact inBox_start hlb lb.pos⟩
  exact lines_apart hn la.len la.len2 lb.len lb.len2 la.ones lb.ones lb.pos hlt hdis u v
    ((mem_cells hla).mp hu) ((mem_cells hlb).mp hv)

/-! ### Filling the arrays -/

/-- No two slots point to the same row. -/
def Clean (a : Arr) : Prop := ∀ k l, a.ptr k = a.ptr l → k = l

theorem fill_ok : ∀ (rows : List CRow) (a : Arr) (n : Nat), Clean a →
    (fill a n rows).1.ptr = a.ptr ∧ (fill a n rows).1.view n rows.length = rows ∧
      ∀ k, k < n ∨ n + rows.length ≤ k → (fill a n rows).1.get k = a.get k
  | [], a, n, _ => by simp [fill, Arr.view]
  | r :: rs, a, n, hc => by
    obtain ⟨h1, h2, h3⟩ := fill_ok rs (a.write n r) (n + 1) hc
    unfold fill
    refine ⟨by rw [h1]; rfl, ?_, ?_⟩
    · rw [List.length_cons, view_cons]
      have e1 : (fill (a.write n r) (n + 1) rs).1.get n = r := by
        rw [h3 n (by omega)]
        simp [Arr.get, Arr.write]
      rw [e1]
      congr 1
      conv => rhs; rw [← h2]
      unfold Arr.view
      apply map_range_congr
      intro k _
      congr 1
      omega
    · intro k hk
      rw [h3 k (by simp at hk; omega)]
      simp only [Arr.get, Arr.write]
      rw [if_neg]
      intro he
      have := hc _ _ he
      simp at hk
      omega

/-- What a group of blocks becomes, without pointers. -/
def outL (srt : List (List Nat) → List Nat) (n : Nat) (g : List CRow) : List CRow :=
  if g.length = 1 then g.map toCount else mergeAllL false n (sortL srt (g.flatMap rowsOf))

/-- No rows of the group are merged. -/
def Settled (srt : List (List Nat) → List Nat) (n : Nat) (g : List CRow) : Prop :=
  g.length = 1 ∨ (outL srt n g).length = (g.flatMap rowsOf).length

theorem view_append (a : Arr) (m n : Nat) : a.view 0 (m + n) = a.view 0 m ++ a.view m n := by
  simp only [Arr.view, List.range_add, List.map_append, List.map_map, Nat.zero_add]
  congr 1

theorem rowsOf_ne (r : CRow) : rowsOf r ≠ [] := by simp [rowsOf, cells_ne]

/-- The first row of the group is the least one. -/
def FirstLeast (g : List CRow) : Prop := ∀ x ∈ (g.flatMap rowsOf).tail, RowLt ((g.flatMap rowsOf).headD ([], [])).1 x.1

structure GroupRes (srt : List (List Nat) → List Nat) (n : Nat) (st : Sel) (g : List CRow) (st' : Sel) : Prop where
  view : st'.arr.view 0 st'.nsel = st.arr.view 0 st.nsel ++ outL srt n g
  clean : Settled srt n g → Clean st'.arr
  first : (0 < st.nsel ∨ g.length = 1 ∨ FirstLeast g) → st'.arr.ptr 0 = st.arr.ptr 0
  pos : 0 < st'.nsel

theorem fillGroup_ok {srt : List (List Nat) → List Nat} (hs : IsSort srt) {n : Nat} {st : Sel} {g : List CRow}
    (hg : g ≠ []) (ho : ∀ r ∈ g, EndOK n r) (hc : Clean st.arr) :
    ∃ st', fillGroup srt n st g = .ok st' ∧ GroupRes srt n st g st' := by
  unfold fillGroup
  by_cases h1 : g.length = 1
  · rw [if_pos h1]
    obtain ⟨f1, f2, f3⟩ := fill_ok (g.map toCount) st.arr st.nsel hc
    refine ⟨_, rfl, ⟨?_, ?_, ?_, by simp⟩⟩
    · simp only
      rw [view_append]
      congr 1
      · apply view_congr
        intro k hk
        exact f3 _ (by omega)
      · unfold outL
        rw [if_pos h1]
        rw [List.length_map, h1] at f2
        exact f2
    · intro _
      unfold Clean
      simp only [f1]
      exact hc
    · intro _
      simp only [f1]
  · rw [if_neg h1, breakRows_ok ho]
    obtain ⟨rows, hrows⟩ : ∃ rows, rows = g.flatMap rowsOf := ⟨_, rfl⟩
    simp only [Res.ok_bind, ← hrows]
    obtain ⟨f1, f2, f3⟩ := fill_ok rows st.arr st.nsel hc
    obtain ⟨a0, ha0⟩ : ∃ a0, a0 = (fill st.arr st.nsel rows).1 := ⟨_, rfl⟩
    rw [← ha0] at f1 f2 f3 ⊢
    have hc0 : Clean a0 := by unfold Clean; rw [f1]; exact hc
    have hd : Distinct a0 st.nsel rows.length := by
      intro k l _ _ he
      have := hc0 _ _ he
      omega
    obtain ⟨a1, e1, t1, p1⟩ := sortblocks_ok hs st.nsel rows.length a0 hd
    rw [e1]
    simp only [Res.ok_bind]
    have hpos : 0 < rows.length := by
      rw [hrows]
      apply List.length_pos_of_ne_nil
      intro he
      rw [List.flatMap_eq_nil_iff] at he
      cases g with
      | nil => exact hg rfl
      | cons x r => exact rowsOf_ne x (he x (by simp))
    obtain ⟨t2, p2⟩ := mergeBlocks_ok false st.nsel n a1 rows.length hpos t1.inj
    have hsorted : a1.view st.nsel rows.length = sortL srt rows := by
      rw [t1.view, f2]
      unfold sortL
      apply List.map_congr_left
      intro i hi
      have hp := (hs (rows.map Prod.fst)).1
      rw [List.length_map] at hp
      have hi' := List.mem_range.mp (hp.mem_iff.mp hi)
      have : a0.get (st.nsel + i) = (a0.view st.nsel rows.length).getD i ([], []) := by
        simp [Arr.view, hi']
      rw [this, f2]
    rw [hsorted] at t2
    have hout : outL srt n g = mergeAllL false n (sortL srt rows) := by
      unfold outL; rw [if_neg h1, ← hrows]
    rw [← hout] at t2
    have t := t1.trans t2
    obtain ⟨m, hm⟩ : ∃ m, m = mergeBlocks false n st.nsel a1 rows.length := ⟨_, rfl⟩
    rw [← hm] at t t2 p2
    have hlen : (outL srt n g).length = m.2 := by rw [← t.view, view_length]
    refine ⟨⟨m.1, st.nsel + m.2⟩, by rw [← hm]; rfl, ⟨?_, ?_, ?_, ?_⟩⟩
    · simp only
      rw [view_append, t.view]
      congr 1
      apply view_congr
      intro k hk
      rw [← f3 (0 + k) (by omega)]
      unfold Arr.get
      rw [t.out _ (by omega), t.mem]
      intro l _ he
      have := hc0 _ _ he
      omega
    · intro hset k l he
      simp only at he
      have hm2 : m.2 = rows.length := by
        rcases hset with hset | hset
        · exact absurd hset h1
        · rw [← hlen, hset, hrows]
      by_cases hk : k < st.nsel ∨ st.nsel + rows.length ≤ k <;> by_cases hl : l < st.nsel ∨ st.nsel + rows.length ≤ l
      · rw [t.out k hk, t.out l hl] at he
        exact hc0 _ _ he
      · obtain ⟨l', rfl⟩ : ∃ l', l = st.nsel + l' := ⟨l - st.nsel, by omega⟩
        obtain ⟨q, q1, q2⟩ := t.ptr l' (by omega)
        rw [t.out k hk, q2] at he
        have := hc0 _ _ he
        omega
      · obtain ⟨k', rfl⟩ : ∃ k', k = st.nsel + k' := ⟨k - st.nsel, by omega⟩
        obtain ⟨q, q1, q2⟩ := t.ptr k' (by omega)
        rw [t.out l hl, q2] at he
        have := hc0 _ _ he
        omega
      · obtain ⟨k', rfl⟩ : ∃ k', k = st.nsel + k' := ⟨k - st.nsel, by omega⟩
        obtain ⟨l', rfl⟩ : ∃ l', l = st.nsel + l' := ⟨l - st.nsel, by omega⟩
        have := t.inj k' l' (by omega) (by omega) he
        omega
    · intro hf
      simp only
      by_cases hz : 0 < st.nsel
      · rw [t.out 0 (.inl hz), f1]
      · have hz' : st.nsel = 0 := by omega
        have hfl : FirstLeast g := by
          rcases hf with hf | hf | hf
          · exact absurd hf hz
          · exact absurd hf h1
          · exact hf
        rw [hz'] at p1 p2
        rw [p2]
        have := p1 0 hpos
        simp only [Nat.add_zero, Nat.zero_add] at this
        rw [this, f1]
        congr 1
        rw [hz'] at f2
        rw [f2]
        unfold FirstLeast at hfl
        rw [← hrows] at hfl
        cases hr : rows with
        | nil => rw [hr] at hpos; simp at hpos
        | cons x xs =>
          rw [hr] at hfl
          simp only [List.map_cons]
          apply srt_head hs
          intro y hy
          obtain ⟨z, hz, rfl⟩ := List.mem_map.mp hy
          exact hfl z hz
    · simp only
      have : 0 < m.2 := by
        rw [← hlen]
        apply List.length_pos_of_ne_nil
        rw [hout]
        apply mergeAllL_ne
        intro he
        have := (sortL_perm hs rows).length_eq
        rw [he] at this
        simp at this
        omega
      omega

theorem fillGroups_ok {srt : List (List Nat) → List Nat} (hs : IsSort srt) {n : Nat} : ∀ (gs : List (List CRow)) (st : Sel),
    (∀ g ∈ gs, g ≠ [] ∧ ∀ r ∈ g, EndOK n r) → Clean st.arr → (∀ g ∈ gs.dropLast, Settled srt n g) →
    ∃ st', fillGroups srt n st gs = .ok st' ∧
      st'.arr.view 0 st'.nsel = st.arr.view 0 st.nsel ++ gs.flatMap (outL srt n) ∧
      ((0 < st.nsel ∨ ∀ g ∈ gs.head?, g.length = 1 ∨ FirstLeast g) → st'.arr.ptr 0 = st.arr.ptr 0) ∧
      (gs ≠ [] → 0 < st'.nsel) := by
  intro gs
  induction gs with
  | nil => intro st _ _ _; exact ⟨st, rfl, by simp, fun _ => rfl, by simp⟩
  | cons g gs ih =>
    intro st hg hc hset
    obtain ⟨st1, e1, r1⟩ := fillGroup_ok hs (hg g (by simp)).1 (hg g (by simp)).2 hc
    unfold fillGroups
    rw [e1]
    simp only [Res.ok_bind]
    cases gs with
    | nil =>
      refine ⟨st1, rfl, by rw [r1.view]; simp, ?_, fun _ => r1.pos⟩
      intro h
      apply r1.first
      rcases h with h | h
      · exact .inl h
      · exact .inr (h g (by simp))
    | cons g2 gs =>
      obtain ⟨st2, e2, v2, f2, q2⟩ := ih st1 (fun x hx => hg x (by simp [hx])) (r1.clean (hset g (by simp)))
        (fun x hx => hset x (by simp at hx ⊢; exact .inr hx))
      refine ⟨st2, e2, by rw [v2, r1.view, List.append_assoc, ← List.flatMap_cons], ?_, fun _ => q2 (by simp)⟩
      intro h
      rw [f2 (.inl r1.pos)]
      apply r1.first
      rcases h with h | h
      · exact .inl h
      · exact .inr (h g (by simp))

end Verif
