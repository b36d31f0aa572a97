import Verif.Spec.Table
import Verif.Props.Damage
import Verif.Lemmas.SecMap

/-
C99: the table of sections of a metadata dataset.
-/

namespace Verif.Props

open _root_.Verif.Spec (bytesOf sectionsSaid endSaid bodyAt SameBody OnePart found WholeEntries NamedGone)

/-! ### Loading in terms of the bytes -/

theorem bytesOf_length (disk : Mem) (m : Ext) : (bytesOf disk m).length = m.size := fileBytes_length _ _ _

theorem bytesOf_part {disk : Mem} {m : Ext} {off n : Nat} (h : off + n ≤ m.size) :
    fileBytes disk (m.addr + off) n = ((bytesOf disk m).drop off).take n := by
  have hl := bytesOf_length disk m
  apply List.ext_getElem
  · simp [hl]; omega
  · intro i h1 h2
    simp only [List.getElem_take, List.getElem_drop]
    unfold bytesOf
    rw [fileBytes_getElem, fileBytes_getElem, Nat.add_assoc]

theorem read_bytes (disk : Mem) (m : Ext) (off n : Nat) :
    m.read disk off n = if off + n ≤ (bytesOf disk m).length then .ok (((bytesOf disk m).drop off).take n) else .err := by
  unfold Ext.read
  rw [bytesOf_length]
  by_cases h : off + n ≤ m.size
  · rw [if_pos h, if_pos h, bytesOf_part h]
  · rw [if_neg h, if_neg h]

theorem words_ends : ∀ (n k : Nat) (b : List Byte),
    words n ((b.drop (8 + 8 * k)).take (8 * n)) = (List.range' k n).map (endSaid b)
  | 0, _, _ => rfl
  | n + 1, k, b => by
    rw [words, List.range'_succ, List.map_cons]
    congr 1
    · unfold endSaid
      rw [List.take_take, Nat.min_eq_left (by omega)]
    · rw [List.drop_take, List.drop_drop, ← words_ends n (k + 1) b]
      congr 2

theorem words_table (n : Nat) (b : List Byte) : words n ((b.drop 8).take (8 * n)) = (List.range n).map (endSaid b) := by
  rw [List.range_eq_range', ← words_ends n 0 b]

theorem ends_getD {n k : Nat} {f : Nat → Nat} (h : k < n) : ((List.range n).map f).getD k 0 = f k := by
  simp [List.getD, h]

/-- Where a part of the metadata starts. -/
def pStart (b : List Byte) (sec : Nat) : Nat := if sec = 0 then bodyAt b else endSaid b (sec - 1)

/-- The first section that it does not contain. -/
def pNext (lim : Nat) (b : List Byte) (sec : Nat) : Nat :=
  partEnd (pStart b sec) lim (sec + 1) (((List.range (sectionsSaid b)).map (endSaid b)).drop (sec + 1))

/-- One part, in terms of the bytes of the dataset. -/
def bytesPart (b : List Byte) (lim len md sec : Nat) : Res (List Byte × Option (Nat × Nat)) :=
  if b.length < bodyAt b then .err else
  if sectionsSaid b ≤ sec then .err else
  let e := endSaid b (pNext lim b sec - 1)
  if e < pStart b sec then .ub else
  if b.length < e then .err else
  .ok ((b.drop (pStart b sec)).take (e - pStart b sec),
    if sectionsSaid b ≤ pNext lim b sec then (if len ≤ md + 1 then none else some (md + 1, 0))
    else (if len ≤ md then none else some (md, pNext lim b sec)))

theorem pNext_range {lim : Nat} {b : List Byte} {sec : Nat} (h : sec < sectionsSaid b) :
    sec < pNext lim b sec ∧ pNext lim b sec ≤ sectionsSaid b := by
  unfold pNext
  have := partEnd_range (pStart b sec) lim (((List.range (sectionsSaid b)).map (endSaid b)).drop (sec + 1)) (sec + 1)
  simp only [List.length_drop, List.length_map, List.length_range] at this
  omega

theorem loadPart_bytes {disk : Mem} {mds : List Ext} {lim md sec : Nat} {m : Ext} (h : mds[md]? = some m) :
    loadPart disk mds lim md sec = bytesPart (bytesOf disk m) lim mds.length md sec := by
  unfold loadPart bytesPart
  rw [h]
  simp only [read_bytes]
  generalize bytesOf disk m = b
  by_cases c0 : b.length < 8
  · rw [if_neg (by omega), if_pos (by unfold bodyAt; omega)]; rfl
  rw [if_pos (by omega), Res.ok_bind, List.drop_zero]
  simp only [show unle (b.take 8) = sectionsSaid b from rfl]
  by_cases c1 : b.length < bodyAt b
  · rw [if_pos c1, if_neg (by unfold bodyAt at c1; omega)]; rfl
  rw [if_neg c1, if_pos (by unfold bodyAt at c1; omega), Res.ok_bind]
  by_cases c2 : sectionsSaid b ≤ sec
  · rw [if_pos c2, if_pos c2]
  rw [if_neg c2, if_neg c2]
  simp only [words_table]
  have hs : (if sec = 0 then 8 * (sectionsSaid b + 1) else ((List.range (sectionsSaid b)).map (endSaid b)).getD (sec - 1) 0) =
      pStart b sec := by
    unfold pStart
    by_cases c : sec = 0
    · rw [if_pos c, if_pos c]; rfl
    · rw [if_neg c, if_neg c, ends_getD (by omega)]
  rw [hs, show partEnd (pStart b sec) lim (sec + 1) (((List.range (sectionsSaid b)).map (endSaid b)).drop (sec + 1)) =
    pNext lim b sec from rfl]
  have hr := pNext_range (lim := lim) (Nat.lt_of_not_le c2)
  rw [ends_getD (by omega)]
  by_cases c3 : endSaid b (pNext lim b sec - 1) < pStart b sec
  · rw [if_pos c3, if_pos c3]
  rw [if_neg c3, if_neg c3]
  by_cases c4 : b.length < endSaid b (pNext lim b sec - 1)
  · rw [if_pos c4, if_neg (by omega)]; rfl
  rw [if_neg c4, if_pos (by omega), Res.ok_bind]
  simp only [Res.pure_eq, Res.ok.injEq, Prod.mk.injEq, true_and]
  by_cases c5 : sectionsSaid b ≤ pNext lim b sec
  · simp only [if_pos c5]
  · simp only [if_neg c5]

theorem body_bytes (disk : Mem) (m : Ext) : m.body disk =
    if (bytesOf disk m).length < 8 then .err else
    if (bytesOf disk m).length < bodyAt (bytesOf disk m) then .ub else .ok ((bytesOf disk m).drop (bodyAt (bytesOf disk m))) := by
  have hl := bytesOf_length disk m
  unfold Ext.body
  simp only [read_bytes]
  rw [← hl]
  generalize bytesOf disk m = b
  by_cases c0 : b.length < 8
  · rw [if_neg (by omega), if_pos c0]; rfl
  rw [if_pos (by omega), if_neg c0, Res.ok_bind, List.drop_zero]
  show (if b.length < bodyAt b then _ else if bodyAt b + (b.length - bodyAt b) ≤ b.length then
    Res.ok ((b.drop (bodyAt b)).take (b.length - bodyAt b)) else .err) = _
  by_cases c1 : b.length < bodyAt b
  · rw [if_pos c1, if_pos c1]
  · rw [if_neg c1, if_neg c1, if_pos (by omega), List.take_of_length_le (by simp)]

/-! ### The theorems -/

theorem loadAll_table {dsets : DSets} {share : Bool} {disk disk' : Mem} : ∀ {ms : List Ext} {ix : Idx},
    (∀ m ∈ ms, m.body disk = m.body disk') → loadAll dsets share disk ms ix = loadAll dsets share disk' ms ix
  | [], _, _ => rfl
  | m :: ms, ix, h => by
    unfold loadAll
    rw [h m (by simp)]
    congr 1
    funext b
    congr 1
    funext i
    exact loadAll_table (fun m' hm => h m' (List.mem_cons_of_mem _ hm))

/-- **C99.** Files whose metadata is loaded as a whole: nothing in the table matters but the number of sections. -/
theorem C99_whole {st : FState} (hm : st.mbuf = none) {disk' : Mem}
    (h : ∀ m ∈ st.mds, SameBody (bytesOf st.disk m) (bytesOf disk' m)) (fuel r : Nat) (qs : List RReq) :
    found (({ st with disk := disk' } : FState).search fuel r qs) = found (st.search fuel r qs) := by
  have hb : ∀ m ∈ st.mds, m.body disk' = m.body st.disk := by
    intro m hmm
    obtain ⟨_, h1, h2, h3⟩ := h m hmm
    have h4 : bodyAt (bytesOf disk' m) = bodyAt (bytesOf st.disk m) := by
      unfold bodyAt sectionsSaid; rw [h2]
    rw [body_bytes, body_bytes, ← h1, h4, ← h3]
  unfold FState.search
  simp only [hm]
  cases st.idx[r]? with
  | none => rfl
  | some o =>
    cases o with
    | some ix =>
      simp only [Res.ok_bind]
      cases flatMapRes ix.search qs <;> rfl
    | none =>
      simp only [loadAll_table hb]
      cases loadAll st.dsets st.cfg.share st.disk st.mds (Idx.empty st.compact) with
      | err => rfl
      | ub => rfl
      | ok ix =>
        simp only [Res.ok_bind]
        cases flatMapRes ix.search qs <;> rfl

theorem loadLoop_table {st st' : FState} {lim : Nat} {qs : List RReq} (hd : st'.dsets = st.dsets) (hc : st'.cfg = st.cfg)
    (hk : st'.compact = st.compact) {P : Nat × Nat → Prop}
    (h : ∀ pos : Nat × Nat, P pos → loadPart st'.disk st'.mds lim pos.1 pos.2 = loadPart st.disk st.mds lim pos.1 pos.2 ∧
      ∀ b q, loadPart st.disk st.mds lim pos.1 pos.2 = .ok (b, some q) → P q) :
    ∀ (fuel : Nat) (pos : Nat × Nat), P pos → loadLoop st' lim qs fuel pos = loadLoop st lim qs fuel pos
  | 0, _, _ => rfl
  | fuel + 1, pos, hp => by
    obtain ⟨h1, h2⟩ := h pos hp
    rw [loadLoop, loadLoop, h1, hd, hc, hk]
    cases e : loadPart st.disk st.mds lim pos.1 pos.2 with
    | err => rfl
    | ub => rfl
    | ok v =>
      obtain ⟨b, o⟩ := v
      simp only [Res.ok_bind]
      congr 1
      funext ix
      congr 1
      funext hs
      cases o with
      | none => rfl
      | some q =>
        simp only
        rw [loadLoop_table hd hc hk h fuel q (h2 b q e)]

theorem found_parts {st st' : FState} {lim : Nat} {qs : List RReq} {fuel r : Nat} (hm : st.mbuf = some lim) (hm' : st'.mbuf = some lim)
    (h : loadLoop st' lim qs fuel (0, 0) = loadLoop st lim qs fuel (0, 0)) :
    found (st'.search fuel r qs) = found (st.search fuel r qs) := by
  unfold FState.search
  rw [hm, hm']
  simp only [h]
  cases loadLoop st lim qs fuel (0, 0) <;> rfl

theorem endSaid_take {b : List Byte} {n k : Nat} (h : 8 + 8 * k + 8 ≤ n) : endSaid (b.take n) k = endSaid b k := by
  unfold endSaid
  rw [List.drop_take, List.take_take, Nat.min_eq_left (by omega)]

theorem sectionsSaid_take {b : List Byte} {n : Nat} (h : 8 ≤ n) : sectionsSaid (b.take n) = sectionsSaid b := by
  unfold sectionsSaid
  rw [List.take_take, Nat.min_eq_left h]

theorem partEnd_congr {start start' lim i : Nat} {os os' : List Nat} (h1 : start = start') (h2 : os = os') :
    partEnd start lim i os = partEnd start' lim i os' := by rw [h1, h2]

/-- Bytes behind all ends do not matter. -/
theorem bytesPart_cut {b : List Byte} {n lim len md sec : Nat} (hn : n ≤ b.length) (hb : bodyAt (b.take n) ≤ n) (h8 : 8 ≤ n)
    (he : ∀ k < sectionsSaid (b.take n), endSaid (b.take n) k ≤ n) :
    bytesPart (b.take n) lim len md sec = bytesPart b lim len md sec := by
  have e1 := sectionsSaid_take (b := b) h8
  have e2 : bodyAt (b.take n) = bodyAt b := by unfold bodyAt; rw [e1]
  rw [e2] at hb
  have e3 : ∀ k < sectionsSaid b, endSaid (b.take n) k = endSaid b k := fun k hk =>
    endSaid_take (by unfold bodyAt at hb; omega)
  rw [e1] at he
  unfold bytesPart
  rw [e1, e2, List.length_take, Nat.min_eq_left hn, if_neg (show ¬ n < bodyAt b by omega), if_neg (show ¬ b.length < bodyAt b by omega)]
  by_cases c : sectionsSaid b ≤ sec
  · rw [if_pos c, if_pos c]
  rw [if_neg c, if_neg c]
  have e4 : pStart (b.take n) sec = pStart b sec := by
    unfold pStart
    rw [e2]
    by_cases c' : sec = 0
    · rw [if_pos c', if_pos c']
    · rw [if_neg c', if_neg c', e3 _ (by omega)]
  have e5 : pNext lim (b.take n) sec = pNext lim b sec := by
    unfold pNext
    rw [e1, e4]
    congr 2
    refine List.map_congr_left fun k hk => e3 k (by simpa using hk)
  have hr := pNext_range (lim := lim) (Nat.lt_of_not_le c)
  have e6 := e3 (pNext lim b sec - 1) (by omega)
  have e7 := he (pNext lim b sec - 1) (by omega)
  rw [e4, e5, e6]
  rw [e6] at e7
  simp only
  by_cases c3 : endSaid b (pNext lim b sec - 1) < pStart b sec
  · rw [if_pos c3, if_pos c3]
  · have c4 : ¬ n < endSaid b (pNext lim b sec - 1) := by omega
    have c5 : ¬ b.length < endSaid b (pNext lim b sec - 1) := by omega
    rw [if_neg c3, if_neg c3, if_neg c4, if_neg c5, List.drop_take, List.take_take, Nat.min_eq_left (by omega)]

/-- **C99, violated.** Files whose metadata is loaded in parts: what lies behind all ends that the table of a metadata dataset
says is not looked at, whatever else the table says; every read is as if that were not in the file. -/
theorem C99_behind_violated {st : FState} {lim : Nat} (hm : st.mbuf = some lim) {cut : Ext → Nat}
    (h : ∀ m ∈ st.mds, 8 ≤ cut m ∧ cut m ≤ m.size ∧ bodyAt ((bytesOf st.disk m).take (cut m)) ≤ cut m ∧
      ∀ k < sectionsSaid ((bytesOf st.disk m).take (cut m)), endSaid ((bytesOf st.disk m).take (cut m)) k ≤ cut m)
    (fuel r : Nat) (qs : List RReq) :
    found (({ st with mds := st.mds.map (fun m => ⟨m.addr, cut m⟩) } : FState).search fuel r qs) = found (st.search fuel r qs) := by
  refine found_parts (lim := lim) hm hm ?_
  refine loadLoop_table (st := st) (st' := { st with mds := st.mds.map (fun m => ⟨m.addr, cut m⟩) }) (P := fun _ => True) rfl rfl rfl (fun pos _ => ⟨?_, fun _ _ _ => trivial⟩) fuel (0, 0) trivial
  simp only
  cases e : st.mds[pos.1]? with
  | none =>
    unfold loadPart
    rw [e, List.getElem?_map, e]
    rfl
  | some m =>
    obtain ⟨h1, h2, h3, h4⟩ := h m (List.mem_of_getElem? e)
    have e' : (st.mds.map (fun m => (⟨m.addr, cut m⟩ : Ext)))[pos.1]? = some ⟨m.addr, cut m⟩ := by rw [List.getElem?_map, e]; rfl
    have hb : bytesOf st.disk ⟨m.addr, cut m⟩ = (bytesOf st.disk m).take (cut m) := by
      have := bytesOf_part (disk := st.disk) (m := m) (off := 0) (n := cut m) (by omega)
      rw [Nat.add_zero, List.drop_zero] at this
      exact this
    rw [loadPart_bytes e', loadPart_bytes e, hb, List.length_map]
    exact bytesPart_cut (by rw [bytesOf_length]; exact h2) h3 h1 h4

theorem partEnd_all {start lim : Nat} : ∀ {os : List Nat} {i : Nat}, (∀ o ∈ os, start ≤ o ∧ o ≤ start + lim) →
    partEnd start lim i os = i + os.length
  | [], _, _ => rfl
  | o :: os, i, h => by
    have := h o (by simp)
    rw [partEnd, if_neg (by omega), partEnd_all (fun o' ho => h o' (List.mem_cons_of_mem _ ho)), List.length_cons]
    omega

theorem pNext_one {lim : Nat} {b : List Byte} (h : OnePart lim b) : pNext lim b 0 = sectionsSaid b := by
  obtain ⟨h0, h⟩ := h
  unfold pNext
  rw [partEnd_all]
  · simp only [List.length_drop, List.length_map, List.length_range]; omega
  · intro o ho
    obtain ⟨i, i1, i2⟩ := List.getElem_of_mem ho
    simp only [List.length_drop, List.length_map, List.length_range] at i1
    simp only [List.getElem_drop, List.getElem_map, List.getElem_range] at i2
    have := h (0 + 1 + i) (by omega) (by omega)
    rw [i2] at this
    exact this

theorem bytesPart_one {b : List Byte} {lim len md : Nat} (h : OnePart lim b) :
    bytesPart b lim len md 0 =
      if b.length < bodyAt b then .err else
      if endSaid b (sectionsSaid b - 1) < bodyAt b then .ub else
      if b.length < endSaid b (sectionsSaid b - 1) then .err else
      .ok ((b.drop (bodyAt b)).take (endSaid b (sectionsSaid b - 1) - bodyAt b), if len ≤ md + 1 then none else some (md + 1, 0)) := by
  unfold bytesPart
  have h0 := h.1
  rw [if_neg (show ¬ sectionsSaid b ≤ 0 by omega), pNext_one h, show pStart b 0 = bodyAt b from rfl, if_pos (Nat.le_refl _)]

/-- **C99.** So when all sections fit into one part: of the ends only the last matters. -/
theorem C99_inner {st : FState} {lim : Nat} (hm : st.mbuf = some lim) {disk' : Mem}
    (h : ∀ m ∈ st.mds, bytesOf disk' m = bytesOf st.disk m ∨
      (OnePart lim (bytesOf st.disk m) ∧ OnePart lim (bytesOf disk' m) ∧ SameBody (bytesOf st.disk m) (bytesOf disk' m) ∧
        endSaid (bytesOf st.disk m) (sectionsSaid (bytesOf st.disk m) - 1) =
          endSaid (bytesOf disk' m) (sectionsSaid (bytesOf st.disk m) - 1)))
    (fuel r : Nat) (qs : List RReq) :
    found (({ st with disk := disk' } : FState).search fuel r qs) = found (st.search fuel r qs) := by
  refine found_parts (lim := lim) hm hm ?_
  refine loadLoop_table (st := st) (st' := { st with disk := disk' }) (P := fun pos => pos.2 = 0 ∨ ∀ m, st.mds[pos.1]? = some m → bytesOf disk' m = bytesOf st.disk m) rfl rfl rfl
    (fun pos hp => ?_) fuel (0, 0) (.inl rfl)
  simp only
  cases e : st.mds[pos.1]? with
  | none =>
    unfold loadPart
    rw [e]
    exact ⟨rfl, fun _ _ hh => by simp at hh⟩
  | some m =>
    rw [loadPart_bytes e, loadPart_bytes e]
    by_cases hs : bytesOf disk' m = bytesOf st.disk m
    · rw [hs]
      refine ⟨rfl, fun b q hq => ?_⟩
      have hnext : q.2 = 0 ∨ q.1 = pos.1 := by
        unfold bytesPart at hq
        simp only at hq
        repeat' split at hq
        all_goals simp at hq
        all_goals rw [← hq.2]
        · exact .inl rfl
        · exact .inr rfl
      rcases hnext with hz | hz
      · exact .inl hz
      · right
        intro m' hm'
        rw [hz, e, Option.some.injEq] at hm'
        rw [← hm']; exact hs
    · rcases hp with hz | hp
      · rcases h m (List.mem_of_getElem? e) with hh | ⟨h1, h2, ⟨_, h3, h4, h5⟩, h6⟩
        · exact absurd hh hs
        have h7 : sectionsSaid (bytesOf disk' m) = sectionsSaid (bytesOf st.disk m) := by unfold sectionsSaid; rw [h4]
        have h8 : bodyAt (bytesOf disk' m) = bodyAt (bytesOf st.disk m) := by unfold bodyAt; rw [h7]
        rw [hz, bytesPart_one h1, bytesPart_one h2, h7, h8, ← h3, ← h6, ← h5]
        refine ⟨rfl, fun b q hq => ?_⟩
        left
        repeat' split at hq
        all_goals simp at hq
        rw [← hq.2]
      · exact absurd (hp m e) hs

/-- Reads after the metadata in front has been searched. -/
theorem search_more {st : FState} {lim : Nat} (hm : st.mbuf = some lim) {fuel r : Nat} {qs : List RReq} {v : List Hit × FState}
    (hok : st.search fuel r qs = .ok v) {m : Ext} {rest : List Ext} {fuel' : Nat} (hf : fuel < fuel') :
    (loadPart st.disk (st.mds ++ m :: rest) lim st.mds.length 0 = .err →
      { st with mds := st.mds ++ m :: rest }.search fuel' r qs = .err) ∧
    (loadPart st.disk (st.mds ++ m :: rest) lim st.mds.length 0 = .ub →
      { st with mds := st.mds ++ m :: rest }.search fuel' r qs = .ub) := by
  have key : ∀ (s : FState) f, s.mbuf = some lim → s.search f r qs = (do let hs ← loadLoop s lim qs f (0, 0); return (hs, s)) := by
    intro s f hs
    unfold FState.search
    rw [hs]
  rw [key _ _ hm] at hok
  rw [key { st with mds := st.mds ++ m :: rest } _ hm]
  obtain ⟨hs, h1, _⟩ := Res.bind_ok hok
  obtain ⟨k, rfl⟩ : ∃ k, fuel' = fuel + (k + 1) := ⟨fuel' - fuel - 1, by omega⟩
  obtain ⟨j, j1, j2⟩ := loadLoop_more (m := m) (rest := rest) (k + 1) _ _ _ h1
  obtain ⟨j', rfl⟩ : ∃ j', j = j' + 1 := ⟨j - 1, by omega⟩
  rw [j2, loadLoop]
  simp only
  exact ⟨fun h => by rw [h]; rfl, fun h => by rw [h]; rfl⟩

theorem get_mid (ms : List Ext) (m : Ext) (rest : List Ext) : (ms ++ m :: rest)[ms.length]? = some m := by
  rw [List.getElem?_append_right (Nat.le_refl _), Nat.sub_self, List.getElem?_cons_zero]

/-- **C99, violated.** All sections in one part: an end behind the end of the dataset is refused, an end before the beginning
of the sections is not checked. -/
theorem C99_last_violated {st : FState} {lim : Nat} (hm : st.mbuf = some lim) {fuel r : Nat} {qs : List RReq}
    {v : List Hit × FState} (hok : st.search fuel r qs = .ok v) {m : Ext} {rest : List Ext} {fuel' : Nat} (hf : fuel < fuel')
    (ho : OnePart lim (bytesOf st.disk m)) (hb : bodyAt (bytesOf st.disk m) ≤ m.size) :
    (m.size < endSaid (bytesOf st.disk m) (sectionsSaid (bytesOf st.disk m) - 1) →
      { st with mds := st.mds ++ m :: rest }.search fuel' r qs = .err) ∧
    (endSaid (bytesOf st.disk m) (sectionsSaid (bytesOf st.disk m) - 1) < bodyAt (bytesOf st.disk m) →
      { st with mds := st.mds ++ m :: rest }.search fuel' r qs = .ub) := by
  obtain ⟨h1, h2⟩ := search_more hm hok (m := m) (rest := rest) hf
  rw [loadPart_bytes (get_mid _ _ _), bytesPart_one ho, bytesOf_length, if_neg (by omega)] at h1 h2
  refine ⟨fun h => h1 ?_, fun h => h2 ?_⟩
  · rw [if_neg (by omega), if_pos h]
  · rw [if_pos h]

/-- **C99, violated.** A table that says there are no sections: loading in parts refuses the file, loading as a whole takes
what follows the number as entries. -/
theorem C99_none_violated {st : FState} {lim : Nat} (hm : st.mbuf = some lim) {fuel r : Nat} {qs : List RReq}
    {v : List Hit × FState} (hok : st.search fuel r qs = .ok v) {m : Ext} {rest : List Ext} {fuel' : Nat} (hf : fuel < fuel')
    (hn : sectionsSaid (bytesOf st.disk m) = 0) (hb : 8 ≤ m.size) :
    { st with mds := st.mds ++ m :: rest }.search fuel' r qs = .err ∧ m.body st.disk = .ok ((bytesOf st.disk m).drop 8) := by
  have h8 : bodyAt (bytesOf st.disk m) = 8 := by unfold bodyAt; rw [hn]
  constructor
  · refine (search_more hm hok hf).1 ?_
    rw [loadPart_bytes (get_mid _ _ _)]
    unfold bytesPart
    rw [if_pos (show sectionsSaid (bytesOf st.disk m) ≤ 0 by omega)]
    split <;> rfl
  · rw [body_bytes, bytesOf_length, h8, if_neg (by omega), if_neg (by omega)]

/-- **C99, violated.** An end inside an entry, where a part ends: the entry is read beyond the end of the part, although whole
entries follow each other in the dataset. -/
theorem C99_inside_violated {st : FState} {lim : Nat} (hm : st.mbuf = some lim) {fuel r : Nat} {qs : List RReq}
    {v : List Hit × FState} (hok : st.search fuel r qs = .ok v) {m : Ext} {rest : List Ext} {fuel' : Nat} (hf : fuel < fuel')
    {ps : List (List Byte)} {x y : List Byte} (hw : WholeEntries ps)
    (hp : ∀ ix : Idx, ∃ ix', ix.parse st.dsets st.cfg.share ps.flatten = .ok ix')
    (hx : x ≠ []) (hl : x.length < 28) (hg : x.length < 8 ∨ ¬ NamedGone st.dsets x)
    (hb : (bytesOf st.disk m).drop (bodyAt (bytesOf st.disk m)) = ps.flatten ++ x ++ y) (hs : bodyAt (bytesOf st.disk m) ≤ m.size)
    (h0 : endSaid (bytesOf st.disk m) 0 = bodyAt (bytesOf st.disk m) + (ps.flatten ++ x).length)
    (h1 : sectionsSaid (bytesOf st.disk m) = 1 ∨ (2 ≤ sectionsSaid (bytesOf st.disk m) ∧
      bodyAt (bytesOf st.disk m) + lim < endSaid (bytesOf st.disk m) 1)) :
    { st with mds := st.mds ++ m :: rest }.search fuel' r qs = .ub := by
  have hlen := congrArg List.length hb
  rw [List.length_drop, List.length_append, bytesOf_length] at hlen
  have hpart : ∃ p, loadPart st.disk [m] lim 0 0 = .ok (ps.flatten ++ x, p) := by
    rw [loadPart_bytes (m := m) rfl]
    generalize hB : bytesOf st.disk m = B at *
    have hBl : B.length = m.size := by rw [← hB]; exact bytesOf_length _ _
    have hn : pNext lim B 0 = 1 := by
      unfold pNext
      rcases h1 with h1 | ⟨h1, h2⟩
      · rw [h1]; rfl
      · obtain ⟨k, hk⟩ : ∃ k, sectionsSaid B = k + 2 := ⟨sectionsSaid B - 2, by omega⟩
        have : ((List.range (sectionsSaid B)).map (endSaid B)).drop (0 + 1) =
            endSaid B 1 :: ((List.range' 2 k).map (endSaid B)) := by
          rw [hk, List.range_eq_range', List.range'_succ, List.range'_succ]
          rfl
        rw [this, partEnd, if_pos (by right; show lim < _ - bodyAt B; omega)]
    unfold bytesPart
    rw [if_neg (by omega), if_neg (show ¬ sectionsSaid B ≤ 0 by omega), hn, show pStart B 0 = bodyAt B from rfl]
    simp only [show 1 - 1 = 0 from rfl, h0]
    rw [if_neg (show ¬ bodyAt B + (ps.flatten ++ x).length < bodyAt B by omega),
      if_neg (show ¬ B.length < bodyAt B + (ps.flatten ++ x).length by omega), hb, Nat.add_sub_cancel_left, List.take_left]
    exact ⟨_, rfl⟩
  obtain ⟨p, hpart⟩ := hpart
  refine (C96_parts hm hok hpart hf).2 fun ix => ?_
  obtain ⟨ix', hix⟩ := hp ix
  exact C96_short_violated hw hix hx hl hg

end Verif.Props
