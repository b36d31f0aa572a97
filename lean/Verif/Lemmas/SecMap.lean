import Verif.Lemmas.Disk
import Verif.Spec.File

/-
Metadata datasets as sequences of sections.
-/

namespace Verif

open Spec (SectionMap secStart)

/-- Contents of a metadata dataset with the given sections. -/
def secContent (secs : List (List Byte)) : List Byte :=
  putWords (secs.length :: inscan (8 * (secs.length + 1)) (secs.map List.length)) ++ secs.flatten

theorem secContent_length (secs : List (List Byte)) :
    (secContent secs).length = secStart secs secs.length := by
  unfold secContent secStart
  simp only [List.length_append, putWords_length, List.length_cons, inscan_length, List.length_map,
    List.length_flatten, List.take_length]

theorem eq_putWords : ∀ (ws : List Nat) (b : List Byte), b.length = 8 * ws.length →
    (∀ (i : Nat) (h : i < ws.length), unle ((b.drop (8 * i)).take 8) = ws[i]) → b = putWords ws
  | [], b, hl, _ => by
    have : b = [] := List.length_eq_zero_iff.mp (by simpa using hl)
    rw [this]; rfl
  | w :: ws, b, hl, h => by
    simp only [List.length_cons] at hl
    have h0 := h 0 (by simp)
    simp only [Nat.mul_zero, List.drop_zero, List.getElem_cons_zero] at h0
    have ih := eq_putWords ws (b.drop 8) (by rw [List.length_drop]; omega) (fun i hi => by
      have := h (i + 1) (by simpa using hi)
      rw [List.drop_drop, show 8 + 8 * i = 8 * (i + 1) by omega]
      simpa using this)
    have h8 : (b.take 8).length = 8 := by rw [List.length_take]; omega
    have e8 := leN_unle (b.take 8)
    rw [h8, h0] at e8
    unfold putWords
    rw [e8, ← ih, List.take_append_drop]

theorem putWords_get : ∀ (ws : List Nat) (post : List Byte), (∀ w ∈ ws, w < 2 ^ 64) →
    ∀ (i : Nat) (h : i < ws.length), unle (((putWords ws ++ post).drop (8 * i)).take 8) = ws[i]
  | [], _, _, i, h => by simp at h
  | w :: ws, post, hw, i, h => by
    cases i with
    | zero =>
      have hw0 := hw w (by simp)
      unfold putWords
      simp only [Nat.mul_zero, List.drop_zero, List.getElem_cons_zero, List.append_assoc]
      rw [List.take_append_of_le_length (by simp), List.take_of_length_le (by simp)]
      exact unle_leN_of_lt (by simpa using hw0)
    | succ i =>
      have ih := putWords_get ws post (fun w hw' => hw w (by simp [hw'])) i (by simpa using h)
      unfold putWords
      simp only [List.getElem_cons_succ, List.append_assoc]
      rw [show 8 * (i + 1) = 8 + 8 * i by omega, ← List.drop_drop,
        List.drop_left' (by simp)]
      exact ih

theorem drop_eq_flatten : ∀ (secs : List (List Byte)) (b : List Byte),
    b.length = (secs.map List.length).sum →
    (∀ (i : Nat) (h : i < secs.length),
      (b.drop ((secs.take i).map List.length).sum).take secs[i].length = secs[i]) → b = secs.flatten
  | [], b, hl, _ => by simpa using hl
  | s :: secs, b, hl, h => by
    simp only [List.map_cons, List.sum_cons] at hl
    have h0 := h 0 (by simp)
    simp only [List.take_zero, List.map_nil, List.sum_nil, List.drop_zero, List.getElem_cons_zero] at h0
    have ih := drop_eq_flatten secs (b.drop s.length) (by rw [List.length_drop]; omega) (fun i hi => by
      have := h (i + 1) (by simpa using hi)
      rw [List.drop_drop]
      simpa using this)
    rw [List.flatten_cons, ← ih]
    conv => rhs; rw [← h0]
    rw [List.length_take, Nat.min_eq_left (by omega), List.take_append_drop]

theorem flatten_get : ∀ (secs : List (List Byte)) (i : Nat) (h : i < secs.length),
    (secs.flatten.drop ((secs.take i).map List.length).sum).take secs[i].length = secs[i]
  | [], i, h => by simp at h
  | s :: secs, 0, _ => by simp
  | s :: secs, i + 1, h => by
    have ih := flatten_get secs i (by simpa using h)
    simp only [List.flatten_cons, List.take_succ_cons, List.map_cons, List.sum_cons,
      List.getElem_cons_succ]
    rw [← List.drop_drop, List.drop_left' rfl]
    exact ih

/-- The two descriptions agree. -/
theorem sectionMap_iff {buf : List Byte} {secs : List (List Byte)}
    (hs : secStart secs secs.length < 2 ^ 64) : SectionMap buf secs ↔ buf = secContent secs := by
  obtain ⟨offs, ho⟩ : ∃ offs, offs = inscan (8 * (secs.length + 1)) (secs.map List.length) := ⟨_, rfl⟩
  have hol : offs.length = secs.length := by rw [ho, inscan_length, List.length_map]
  have hget : ∀ (j : Nat) (hj : j < offs.length), offs[j] = secStart secs (j + 1) := by
    subst ho
    intro j hj
    rw [inscan_getElem]
    simp only [secStart, List.map_take]
  have hstart : secStart secs secs.length = 8 * (secs.length + 1) + (secs.map List.length).sum := by
    simp [secStart]
  constructor
  · intro h
    have hlen := h.len
    rw [hstart] at hlen
    have h1 : buf.take (8 * (secs.length + 1)) = putWords (secs.length :: offs) := by
      apply eq_putWords
      · rw [List.length_take, List.length_cons, hol]; omega
      · intro i hi
        rw [List.length_cons, hol] at hi
        have e : ((buf.take (8 * (secs.length + 1))).drop (8 * i)).take 8 = (buf.drop (8 * i)).take 8 := by
          rw [List.drop_take, List.take_take, Nat.min_eq_left (by omega)]
        rw [e]
        cases i with
        | zero => simpa using h.nsec
        | succ i =>
          rw [List.getElem_cons_succ, hget i (by omega)]
          exact h.ends i (by omega)
    have h2 : buf.drop (8 * (secs.length + 1)) = secs.flatten := by
      apply drop_eq_flatten
      · rw [List.length_drop]; omega
      · intro i hi
        rw [List.drop_drop]
        exact h.body i hi
    unfold secContent
    rw [← ho, ← h1, ← h2, List.take_append_drop]
  · intro h
    have hw : ∀ w ∈ (secs.length :: offs), w < 2 ^ 64 := by
      intro w hw
      rw [List.mem_cons, ho] at hw
      rcases hw with rfl | hw
      · omega
      · have := inscan_le hw
        omega
    have hg := putWords_get (secs.length :: offs) secs.flatten hw
    have hb : buf = putWords (secs.length :: offs) ++ secs.flatten := by rw [h, ho]; rfl
    refine ⟨?_, ?_, ?_, ?_⟩
    · have := hg 0 (by simp)
      rw [← hb] at this
      simpa using this
    · intro i hi
      have := hg (i + 1) (by rw [List.length_cons, hol]; omega)
      rw [← hb, List.getElem_cons_succ, hget i (by omega)] at this
      exact this
    · intro i hi
      have : buf.drop (secStart secs i) = secs.flatten.drop ((secs.take i).map List.length).sum := by
        rw [hb, secStart, ← List.drop_drop, List.drop_left' (by simp [hol])]
      rw [this]
      exact flatten_get secs i hi
    · rw [h]; exact secContent_length secs

/-- A range of the file holds a metadata dataset. -/
def SecOn (disk : Mem) (e : Ext) (secs : List (List Byte)) : Prop :=
  fileBytes disk e.addr e.size = secContent secs

theorem SecOn.size {disk : Mem} {e : Ext} {secs : List (List Byte)} (h : SecOn disk e secs) :
    e.size = 8 * (secs.length + 1) + (secs.map List.length).sum := by
  have := secContent_length secs
  rw [← h, fileBytes_length] at this
  simpa [secStart] using this

theorem SecOn.read {disk : Mem} {e : Ext} {secs : List (List Byte)} (h : SecOn disk e secs)
    {pre mid post : List Byte} (hc : secContent secs = pre ++ mid ++ post) {off n : Nat}
    (ho : off = pre.length) (hn : n = mid.length) : e.read disk off n = .ok mid := by
  have hl := congrArg List.length hc
  rw [secContent_length, List.length_append, List.length_append] at hl
  simp only [secStart, List.take_length] at hl
  unfold Ext.read
  subst ho hn
  rw [if_pos (by rw [h.size]; omega), fileBytes_sub (h.trans hc)]

theorem SecOn.nsec {disk : Mem} {e : Ext} {secs : List (List Byte)} (h : SecOn disk e secs)
    (hs : e.size < 2 ^ 64) :
    e.read disk 0 8 = .ok (leN 8 secs.length) ∧ unle (leN 8 secs.length) = secs.length := by
  constructor
  · refine h.read (pre := []) (post := putWords (inscan (8 * (secs.length + 1)) (secs.map List.length)) ++
      secs.flatten) ?_ (by simp) (by simp)
    simp [secContent, putWords]
  · have := h.size
    exact unle_leN_of_lt (by
      have : secs.length < 2 ^ 64 := by omega
      simpa using this)

theorem SecOn.body {disk : Mem} {e : Ext} {secs : List (List Byte)} (h : SecOn disk e secs)
    (h64 : e.size < 2 ^ 64) : e.body disk = .ok secs.flatten := by
  unfold Ext.body
  rw [(h.nsec h64).1]
  simp only [Res.ok_bind, (h.nsec h64).2]
  have hs := h.size
  rw [if_neg (by omega)]
  refine h.read (pre := putWords (secs.length :: inscan (8 * (secs.length + 1)) (secs.map List.length)))
    (post := []) (by simp [secContent]) ?_ ?_
  · simp only [putWords_length, List.length_cons, inscan_length, List.length_map]
  · rw [List.length_flatten]
    omega

/-! ### Loading parts of the metadata -/

theorem partEnd_range (start lim : Nat) : ∀ (os : List Nat) (i : Nat),
    i ≤ partEnd start lim i os ∧ partEnd start lim i os ≤ i + os.length
  | [], i => by simp [partEnd]
  | o :: os, i => by
    unfold partEnd
    split
    · simp
    · have := partEnd_range start lim os (i + 1)
      simp only [List.length_cons]
      omega

/-- Sections after the first are only loaded if they fit in the buffer. -/
theorem partEnd_bound (start lim : Nat) : ∀ (os : List Nat) (i j : Nat), i ≤ j →
    j < partEnd start lim i os → ∃ o, os[j - i]? = some o ∧ start ≤ o ∧ o - start ≤ lim
  | [], i, j, h1, h2 => by simp only [partEnd] at h2; omega
  | o :: os, i, j, h1, h2 => by
    unfold partEnd at h2
    split at h2
    · omega
    · rename_i hc
      by_cases he : j = i
      · subst he
        exact ⟨o, by simp, by omega, by omega⟩
      · obtain ⟨o', a1, a2⟩ := partEnd_bound start lim os (i + 1) j (by omega) h2
        refine ⟨o', ?_, a2⟩
        rw [← a1, show j - i = (j - (i + 1)) + 1 by omega, List.getElem?_cons_succ]

/-- The loop stops at the end or at a section that does not fit. -/
theorem partEnd_stop (start lim : Nat) : ∀ (os : List Nat) (i : Nat),
    partEnd start lim i os = i + os.length ∨
      ∃ o, os[partEnd start lim i os - i]? = some o ∧ (o < start ∨ lim < o - start)
  | [], i => by simp [partEnd]
  | o :: os, i => by
    unfold partEnd
    split
    · rename_i hc
      exact .inr ⟨o, by simp, hc⟩
    · rcases partEnd_stop start lim os (i + 1) with h | ⟨o', h1, h2⟩
      · left
        rw [h, List.length_cons]
        omega
      · right
        have := (partEnd_range start lim os (i + 1)).1
        refine ⟨o', ?_, h2⟩
        rw [show partEnd start lim (i + 1) os - i = (partEnd start lim (i + 1) os - (i + 1)) + 1 by omega,
          List.getElem?_cons_succ, h1]

/-- The metadata read in one step: some consecutive sections, at least one. -/
theorem SecOn.part {disk : Mem} {e : Ext} {secs : List (List Byte)} (h : SecOn disk e secs)
    {mds : List Ext} {md sec lim : Nat} (he : mds[md]? = some e) (hs : sec < secs.length)
    (h63 : e.size < 2 ^ 64) :
    ∃ i, sec < i ∧ i ≤ secs.length ∧
      loadPart disk mds lim md sec = .ok (((secs.take i).drop sec).flatten,
        if mds.length ≤ (if secs.length ≤ i then md + 1 else md) then none
        else some (if secs.length ≤ i then md + 1 else md, if secs.length ≤ i then 0 else i)) ∧
      (i = sec + 1 ∨ ((secs.take i).drop sec).flatten.length ≤ lim) ∧
      (i = secs.length ∨ lim < ((secs.take (i + 1)).drop sec).flatten.length) := by
  obtain ⟨n1, n2⟩ := h.nsec h63
  obtain ⟨offs, ho⟩ : ∃ offs, offs = inscan (8 * (secs.length + 1)) (secs.map List.length) := ⟨_, rfl⟩
  have hol : offs.length = secs.length := by rw [ho, inscan_length, List.length_map]
  have hgetE : ∀ (j : Nat) (hj : j < offs.length), offs[j] =
      8 * (secs.length + 1) + ((secs.map List.length).take (j + 1)).sum := by
    subst ho
    intro j hj
    exact inscan_getElem _ _ _ hj
  have hcont : secContent secs = leN 8 secs.length ++ putWords offs ++ secs.flatten := by
    rw [ho]
    simp [secContent, putWords]
  have hoffs : e.read disk 8 (8 * secs.length) =
      .ok (putWords offs) := by
    refine h.read (pre := leN 8 secs.length) (post := secs.flatten) ?_ (by simp)
      (by simp [hol])
    exact hcont
  have hw : words secs.length (putWords offs) =
      offs := by
    have := words_putWords offs (fun w hw => by
      rw [ho] at hw
      have := inscan_le hw
      have := h.size
      omega)
    rw [hol] at this
    exact this
  have hget : ∀ j, 0 < j → j ≤ secs.length →
      offs.getD (j - 1) 0 =
        8 * (secs.length + 1) + ((secs.map List.length).take j).sum := by
    intro j h0 h1
    have hl : j - 1 < offs.length := by
      omega
    rw [List.getD_eq_getElem?_getD, List.getElem?_eq_getElem hl, Option.getD_some, hgetE, show j - 1 + 1 = j by omega]
  obtain ⟨start, hst⟩ : ∃ start, start = 8 * (secs.length + 1) + ((secs.map List.length).take sec).sum := ⟨_, rfl⟩
  have hstart : (if sec = 0 then 8 * (secs.length + 1) else
      offs.getD (sec - 1) 0) = start := by
    split
    · rename_i h0
      simp [hst, h0]
    · rw [hst]; exact hget sec (by omega) (by omega)
  obtain ⟨i, hidef⟩ : ∃ i, i = partEnd start lim (sec + 1) (offs.drop (sec + 1)) := ⟨_, rfl⟩
  have hi := partEnd_range start lim (offs.drop (sec + 1)) (sec + 1)
  rw [List.length_drop, hol, ← hidef] at hi
  have hi1 : sec + 1 ≤ i := hi.1
  have hi2 : i ≤ secs.length := by have := hi.2; omega
  have hsplit : secs = secs.take sec ++ (secs.take i).drop sec ++ secs.drop i := by
    have e1 : secs.take sec = (secs.take i).take sec := by
      rw [List.take_take, Nat.min_eq_left (by omega)]
    rw [e1, List.take_append_drop, List.take_append_drop]
  have hsum : ∀ i, sec ≤ i → ((secs.map List.length).take i).sum =
      ((secs.map List.length).take sec).sum + (((secs.take i).drop sec).map List.length).sum := by
    intro i hi1
    have e1 : (secs.map List.length).take i = (secs.map List.length).take sec ++ ((secs.take i).drop sec).map List.length := by
      rw [← List.map_take, ← List.map_take, ← List.map_append]
      congr 1
      have e1 : secs.take sec = (secs.take i).take sec := by
        rw [List.take_take, Nat.min_eq_left (by omega)]
      rw [e1, List.take_append_drop]
    rw [e1, List.sum_append]
  have hend : offs.getD (i - 1) 0 =
      start + (((secs.take i).drop sec).map List.length).sum := by
    rw [hget i (by omega) hi2, hsum i (by omega)]
    omega
  have hread : e.read disk start (((secs.take i).drop sec).map List.length).sum =
      .ok (((secs.take i).drop sec).flatten) := by
    refine h.read (pre := leN 8 secs.length ++ putWords offs ++
      (secs.take sec).flatten) (post := (secs.drop i).flatten) ?_ ?_ ?_
    · have e3 : secs.flatten = (secs.take sec).flatten ++
          ((secs.take i).drop sec).flatten ++ (secs.drop i).flatten := by
        rw [← List.flatten_append, ← List.flatten_append, ← hsplit]
      rw [hcont, e3]
      simp only [List.append_assoc]
    · rw [List.length_append, List.length_append, putWords_length, List.length_flatten, leN_length, hol,
        List.map_take, hst]
      omega
    · rw [List.length_flatten]
  refine ⟨i, by omega, hi2, ?_, ?_, ?_⟩
  · unfold loadPart
    rw [he]
    simp only
    rw [n1]
    simp only [Res.ok_bind, n2]
    rw [hoffs]
    simp only [Res.ok_bind, hw]
    rw [if_neg (by omega), hstart]
    rw [← hidef, hend, if_neg (by omega), Nat.add_sub_cancel_left, hread]
    rfl
  · by_cases hii : i = sec + 1
    · exact Or.inl hii
    · right
      obtain ⟨o, o1, o2, o3⟩ := partEnd_bound start lim
        (offs.drop (sec + 1)) (sec + 1) (i - 1) (by omega)
        (by rw [← hidef]; omega)
      rw [List.getElem?_drop, show sec + 1 + (i - 1 - (sec + 1)) = i - 1 by omega] at o1
      have : offs.getD (i - 1) 0 = o := by
        rw [List.getD_eq_getElem?_getD, o1]; rfl
      rw [hend] at this
      rw [List.length_flatten]
      omega
  · rcases partEnd_stop start lim (offs.drop (sec + 1)) (sec + 1) with h1 | ⟨o, o1, o2⟩
    · left
      rw [← hidef, List.length_drop, hol] at h1
      omega
    · right
      rw [← hidef, List.getElem?_drop, show sec + 1 + (i - (sec + 1)) = i by omega] at o1
      have hil : i < offs.length := by
        by_contra hc
        rw [List.getElem?_eq_none (by omega)] at o1
        simp at o1
      rw [List.getElem?_eq_getElem hil, hgetE i hil, hsum (i + 1) (by omega)] at o1
      injection o1 with o1
      rw [List.length_flatten]
      omega

end Verif
