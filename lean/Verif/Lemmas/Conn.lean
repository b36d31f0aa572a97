import Verif.Spec.Conn

/-!
Lemmas for C87: ledgers of references.
-/

namespace Verif.Conn

/-! ### Ledgers -/

theorem Led.ext' {l m : Led} (h1 : ∀ k, l.refs k = m.refs k) (h2 : l.blocks = m.blocks) : l = m := by
  cases l; cases m
  simp only [Led.mk.injEq] at *
  exact ⟨funext h1, h2⟩

def Led.plus (l : Led) (f : Nat → Nat) (b : Nat) : Led := ⟨fun k => l.refs k + f k, l.blocks + b⟩

theorem inc_plus {l : Led} {c : Nat} (h : 0 < l.refs c) : l.inc c = l.plus (fun k => if k = c then 1 else 0) 0 := by
  unfold Led.inc Led.plus
  rw [if_neg (by omega)]
  refine Led.ext' (fun k => ?_) rfl
  simp only
  split
  · next e => rw [e]
  · omega

theorem dec_plus {l : Led} {c : Nat} : (l.plus (fun k => if k = c then 1 else 0) 0).dec c = l := by
  unfold Led.dec Led.plus
  simp only [if_true]
  rw [if_neg (by omega)]
  refine Led.ext' (fun k => ?_) rfl
  simp only
  split
  · next e => rw [e]; omega
  · omega

theorem copyInfo_eq : ∀ (i : CInfo) {l : Led}, i.Valid l → copyInfo i l = (i, l.plus i.holds i.size)
  | .null, l, _ => rfl
  | .own n, l, _ => rfl
  | .log c i, l, h => by
    have hc : 0 < l.refs c := h c (by simp only [CInfo.holds, if_true]; omega)
    have e : ({ l with blocks := l.blocks + 1 } : Led).inc c = l.plus (fun k => if k = c then 1 else 0) 1 := by
      rw [inc_plus (by exact hc)]
      exact Led.ext' (fun k => rfl) rfl
    unfold copyInfo
    simp only [e]
    by_cases hi : i = .null
    · subst hi
      rw [if_pos (.inl rfl)]
      refine Prod.ext rfl (Led.ext' (fun k => ?_) ?_)
      · simp [Led.plus, CInfo.holds]
      · simp [Led.plus, CInfo.size]
    · rw [if_neg]
      · rw [copyInfo_eq i (l := l.plus (fun k => if k = c then 1 else 0) 1)]
        · refine Prod.ext rfl (Led.ext' (fun k => ?_) ?_)
          · simp only [Led.plus, CInfo.holds]; omega
          · simp only [Led.plus, CInfo.size]; omega
        · intro k hk
          have := h k (by simp only [CInfo.holds]; omega)
          simp only [Led.plus]; omega
      · simp only [Led.plus, if_true]
        rintro (h' | h')
        · exact hi h'
        · omega

theorem freeInfo_eq : ∀ (i : CInfo) (l : Led), freeInfo i (l.plus i.holds i.size) = l
  | .null, l => rfl
  | .own n, l => Led.ext' (fun k => by simp [freeInfo, Led.plus, CInfo.holds]) (by simp [freeInfo, Led.plus, CInfo.size])
  | .log c i, l => by
    have e : l.plus (CInfo.log c i).holds (CInfo.log c i).size = (l.plus (fun k => if k = c then 1 else 0) 1).plus i.holds i.size :=
      Led.ext' (fun k => by simp only [Led.plus, CInfo.holds]; omega) (by simp only [Led.plus, CInfo.size]; omega)
    unfold freeInfo
    rw [e, freeInfo_eq i]
    rw [if_neg (by simp only [Led.plus, if_true]; omega)]
    have e' : l.plus (fun k => if k = c then 1 else 0) 1 = (l.plus (fun _ => 0) 1).plus (fun k => if k = c then 1 else 0) 0 :=
      Led.ext' (fun k => by simp [Led.plus]) (by simp [Led.plus])
    simp only [e', dec_plus]
    exact Led.ext' (fun k => by simp [Led.plus]) (by simp [Led.plus])

theorem takeProp_eq {p : CProp} {l : Led} (h1 : 0 < l.refs p.1) (h2 : p.2.Valid l) :
    takeProp p l = (p, l.plus (listHolds (some p)) p.2.size) := by
  unfold takeProp
  rw [inc_plus h1, copyInfo_eq]
  · refine Prod.ext rfl (Led.ext' (fun k => ?_) ?_)
    · simp only [Led.plus, listHolds, Option.elim]; omega
    · simp only [Led.plus]; omega
  · intro k hk
    have := h2 k hk
    simp only [Led.plus]; omega

theorem dropProp_eq (p : CProp) (l : Led) : dropProp p (l.plus (listHolds (some p)) p.2.size) = l := by
  have e : l.plus (listHolds (some p)) p.2.size = (l.plus (fun k => if k = p.1 then 1 else 0) 0).plus p.2.holds p.2.size :=
    Led.ext' (fun k => by simp only [Led.plus, listHolds, Option.elim]; omega) (by simp only [Led.plus]; omega)
  unfold dropProp
  rw [if_neg (by simp only [Led.plus, listHolds, Option.elim, if_true]; omega), e, freeInfo_eq, dec_plus]

theorem ids_count : ∀ (i : CInfo) (k : Nat), i.ids.count k = i.holds k
  | .null, _ => rfl
  | .own _, _ => rfl
  | .log c i, k => by
    simp only [CInfo.ids, CInfo.holds, List.count_cons, ids_count i k, beq_iff_eq]
    by_cases h : k = c
    · rw [if_pos h, if_pos h.symm]; omega
    · rw [if_neg h, if_neg (fun e => h e.symm)]; omega

theorem ids_valid {i : CInfo} {l : Led} (h : ∀ c ∈ i.ids, l.refs c ≠ 0) : i.Valid l := by
  intro k hk
  rw [← ids_count, List.count_pos_iff] at hk
  have := h k hk
  omega

theorem parseInfo_eq : ∀ (i : CInfo) {l : Led}, i.Valid l → parseInfo i l = l.plus (fun k => 2 * i.holds k) i.size
  | .null, l, _ => rfl
  | .own n, l, _ => rfl
  | .log c i, l, h => by
    have hc : 0 < l.refs c := h c (by simp only [CInfo.holds, if_true]; omega)
    unfold parseInfo
    rw [inc_plus hc, parseInfo_eq i, inc_plus]
    · refine Led.ext' (fun k => ?_) ?_
      · simp only [Led.plus, CInfo.holds]; omega
      · simp only [Led.plus, CInfo.size]; omega
    · simp only [Led.plus]; omega
    · intro k hk
      have := h k (by simp only [CInfo.holds]; omega)
      simp only [Led.plus]; omega

theorem incs_eq : ∀ (ids : List Nat) {l : Led}, (∀ c ∈ ids, 0 < l.refs c) → ids.foldl Led.inc l = l.plus (fun k => ids.count k) 0
  | [], l, _ => rfl
  | c :: ids, l, h => by
    rw [List.foldl_cons, inc_plus (h c (by simp)), incs_eq ids]
    · refine Led.ext' (fun k => ?_) rfl
      simp only [Led.plus, List.count_cons, beq_iff_eq]
      by_cases e : k = c
      · rw [if_pos e, if_pos e.symm]; omega
      · rw [if_neg e, if_neg (fun e' => e e'.symm)]; omega
    · intro c' hc'
      have := h c' (by simp [hc'])
      simp only [Led.plus]; omega

theorem decs_eq : ∀ (ids : List Nat) (l : Led), ids.foldl Led.dec (l.plus (fun k => ids.count k) 0) = l
  | [], l => rfl
  | c :: ids, l => by
    have e : l.plus (fun k => (c :: ids).count k) 0 = (l.plus (fun k => ids.count k) 0).plus (fun k => if k = c then 1 else 0) 0 := by
      refine Led.ext' (fun k => ?_) rfl
      simp only [Led.plus, List.count_cons, beq_iff_eq]
      by_cases e : k = c
      · rw [if_pos e, if_pos e.symm]; omega
      · rw [if_neg e, if_neg (fun e' => e e'.symm)]; omega
    rw [List.foldl_cons, e, dec_plus, decs_eq ids]

/-! ### Sums -/

theorem sum_set {α : Type} (f : α → Nat) : ∀ (l : List α) (n : Nat) (x y : α), l[n]? = some x →
    ((l.set n y).map f).sum + f x = (l.map f).sum + f y
  | [], n, x, y, h => by simp at h
  | a :: l, 0, x, y, h => by
    simp only [List.getElem?_cons_zero, Option.some.injEq] at h
    subst h
    simp only [List.set_cons_zero, List.map_cons, List.sum_cons]
    omega
  | a :: l, n + 1, x, y, h => by
    have := sum_set f l n x y (by simpa using h)
    simp only [List.set_cons_succ, List.map_cons, List.sum_cons]
    omega

theorem join_some {α : Type} {l : List (Option α)} {n : Nat} {x : α} (h : (l[n]?).join = some x) : l[n]? = some (some x) := by
  cases e : l[n]? with
  | none => rw [e] at h; simp at h
  | some o => rw [e] at h; simpa using h

theorem le_sum {α : Type} (f : α → Nat) {l : List α} {x : α} (h : x ∈ l) : f x ≤ (l.map f).sum := by
  induction l with
  | nil => simp at h
  | cons a l ih =>
    simp only [List.map_cons, List.sum_cons]
    rcases List.mem_cons.mp h with rfl | h
    · omega
    · have := ih h
      omega

/-! ### One call -/

/-- Balanced, with the identifiers not yet given out. -/
structure Bal (base : Nat → Nat) (s : St) (t : Tally) : Prop extends Balanced base s t where
  fresh : ∀ k, s.next ≤ k → s.led.refs k = 0
  native : 0 < base 0

theorem list_le {s : St} {h : Nat} {p : CProp} (e : s.list h = some p) (k : Nat) : listHolds (some p) k ≤ s.inUse k := by
  have := le_sum (listHolds · k) (List.mem_of_getElem? (join_some e))
  unfold St.inUse
  omega

theorem list_valid {base : Nat → Nat} {s : St} {t : Tally} (b : Balanced base s t) {h : Nat} {p : CProp} (e : s.list h = some p) :
    0 < s.led.refs p.1 ∧ p.2.Valid s.led := by
  have h1 : ∀ k, 0 < listHolds (some p) k → 0 < s.led.refs k := by
    intro k hk
    have := list_le e k
    have := b.refs k
    omega
  refine ⟨h1 _ (by simp only [listHolds, Option.elim, if_true]; omega), fun k hk => h1 k ?_⟩
  simp only [listHolds, Option.elim]
  omega

theorem bal_register {base : Nat → Nat} {s : St} {t : Tally} (b : Bal base s t) :
    Bal base s.register.1 (if s.g = none then t.give s.register.2 else t) ∧ s.register.1.lists = s.lists ∧
      s.register.1.infos = s.infos ∧ s.register.1.files = s.files := by
  unfold St.register
  cases hg : s.g with
  | some c =>
    simp only [reduceCtorEq, if_false]
    exact ⟨b, trivial, trivial, trivial⟩
  | none =>
    simp only [if_true]
    cases hp : s.plug.filter (fun c => s.led.refs c ≠ 0) with
    | some c =>
      have hc : 0 < s.led.refs c := by
        have := (Option.filter_eq_some_iff.mp hp).2
        simp only [ne_eq, decide_not, Bool.not_eq_eq_eq_not, Bool.not_true, decide_eq_false_iff_not] at this
        omega
      refine ⟨⟨⟨fun k => ?_, ?_⟩, fun k hk => ?_, b.native⟩, rfl, rfl, rfl⟩
      · have := b.refs k
        simp only [inc_plus hc, Led.plus, Tally.give]
        show _ = base k + s.inUse k + _ + _
        omega
      · simp only [inc_plus hc, Led.plus, Tally.give]
        exact b.blocks
      · have := b.fresh k hk
        simp only [inc_plus hc, Led.plus]
        have : k ≠ c := by rintro rfl; omega
        rw [if_neg this]
        omega
    | none =>
      refine ⟨⟨⟨fun k => ?_, b.blocks⟩, fun k hk => ?_, b.native⟩, rfl, rfl, rfl⟩
      · have h1 := b.refs k
        have h2 := b.fresh s.next (Nat.le_refl _)
        show (if k = s.next then 1 else s.led.refs k) = base k + s.inUse k + (t.app k + if k = s.next then 1 else 0) + t.lost k
        by_cases hk : k = s.next
        · rw [if_pos hk, if_pos hk]
          rw [hk] at h1 ⊢
          omega
        · rw [if_neg hk, if_neg hk]
          omega
      · have hk' : s.next + 1 ≤ k := hk
        show (if k = s.next then 1 else s.led.refs k) = 0
        rw [if_neg (by omega)]
        exact b.fresh k (by omega)

theorem bal_setVol {base : Nat → Nat} {s : St} {t : Tally} (b : Bal base s t) (h c : Nat) {i : CInfo} (hi : i.Valid s.led) :
    Bal base (s.setVol h c i).1 t := by
  unfold St.setVol
  cases hl : s.list h with
  | none => exact b
  | some old =>
    simp only
    by_cases hc : s.led.refs c = 0
    · rw [if_pos hc]
      exact b
    rw [if_neg hc]
    rw [takeProp_eq (p := (c, i)) (by simp only; omega) hi]
    obtain ⟨l, hl1, hl2⟩ : ∃ l : Led, s.led.plus (listHolds (some (c, i))) i.size = l.plus (listHolds (some old)) old.2.size ∧
        ∀ k, l.refs k + listHolds (some old) k = s.led.refs k + listHolds (some (c, i)) k := by
      refine ⟨⟨fun k => s.led.refs k + listHolds (some (c, i)) k - listHolds (some old) k, s.led.blocks + i.size - old.2.size⟩, ?_, ?_⟩
      · refine Led.ext' (fun k => ?_) ?_
        · have := list_le hl k
          have := b.refs k
          simp only [Led.plus]
          omega
        · have := le_sum (fun o : Option CProp => o.elim 0 (fun p => p.2.size)) (List.mem_of_getElem? (join_some hl))
          have := b.blocks
          unfold St.usedBlocks at this
          simp only [Led.plus, Option.elim] at *
          omega
      · intro k
        have := list_le hl k
        have := b.refs k
        simp only
        omega
    have e3 : s.led.blocks + i.size = l.blocks + old.2.size := congrArg Led.blocks hl1
    simp only [hl1, dropProp_eq]
    have hs := join_some hl
    refine ⟨⟨fun k => ?_, ?_⟩, fun k hk => ?_, b.native⟩
    · have h1 := b.refs k
      have h2 := hl2 k
      have h3 := sum_set (listHolds · k) s.lists h (some old) (some (c, i)) hs
      simp only [St.inUse] at *
      omega
    · have h1 := b.blocks
      have h3 := sum_set (fun o : Option CProp => o.elim 0 (fun p => p.2.size)) s.lists h (some old) (some (c, i)) hs
      simp only [St.usedBlocks, Option.elim] at *
      omega
    · have h1 := b.fresh k hk
      have h2 := hl2 k
      have h3 : listHolds (some (c, i)) k = 0 := by
        simp only [listHolds, Option.elim]
        have : k ≠ c := by rintro rfl; exact hc h1
        rw [if_neg this]
        have := hi k
        omega
      show l.refs k = 0
      omega

theorem bal_give {base : Nat → Nat} {s : St} {t : Tally} (b : Bal base s t) {l : Led} {f : Nat → Nat} {n : Nat}
    (hl : l = s.led.plus f n) (hf : ∀ k, 0 < f k → 0 < s.led.refs k) (s' : St) (e : s' = { s with led := l }) :
    Bal base s' (t.lose f n) := by
  subst hl e
  refine ⟨⟨fun k => ?_, ?_⟩, fun k hk => ?_, b.native⟩
  · have := b.refs k
    show s.led.refs k + f k = base k + s.inUse k + t.app k + (t.lost k + f k)
    omega
  · have := b.blocks
    show s.led.blocks + n = s.usedBlocks + (t.lostBlocks + n)
    omega
  · have := b.fresh k hk
    have := hf k
    show s.led.refs k + f k = 0
    omega

theorem bal_list {base : Nat → Nat} {s : St} {t : Tally} (b : Bal base s t) {l : Led} {p : CProp}
    (hl : l = s.led.plus (listHolds (some p)) p.2.size) (hp : 0 < s.led.refs p.1) (hi : p.2.Valid s.led) :
    Bal base { s with lists := s.lists ++ [some p], led := l } t := by
  subst hl
  refine ⟨⟨fun k => ?_, ?_⟩, fun k hk => ?_, b.native⟩
  · have := b.refs k
    simp only [St.inUse, Led.plus, List.map_append, List.map_cons, List.map_nil, List.sum_append, List.sum_cons, List.sum_nil] at *
    omega
  · have := b.blocks
    simp only [St.usedBlocks, Led.plus, List.map_append, List.map_cons, List.map_nil, List.sum_append, List.sum_cons, List.sum_nil,
      Option.elim] at *
    omega
  · have h1 := b.fresh k hk
    have h2 := hi k
    have : k ≠ p.1 := by rintro rfl; omega
    show s.led.refs k + ((if k = p.1 then 1 else 0) + p.2.holds k) = 0
    rw [if_neg this]
    omega

theorem bal_info {base : Nat → Nat} {s : St} {t : Tally} (b : Bal base s t) {l : Led} {i : CInfo}
    (hl : l = s.led.plus i.holds i.size) (hi : i.Valid s.led) :
    Bal base { s with infos := s.infos ++ [some i], led := l } t := by
  subst hl
  refine ⟨⟨fun k => ?_, ?_⟩, fun k hk => ?_, b.native⟩
  · have := b.refs k
    simp only [St.inUse, Led.plus, List.map_append, List.map_cons, List.map_nil, List.sum_append, List.sum_cons, List.sum_nil, infoHolds,
      Option.elim] at *
    omega
  · have := b.blocks
    simp only [St.usedBlocks, Led.plus, List.map_append, List.map_cons, List.map_nil, List.sum_append, List.sum_cons, List.sum_nil,
      Option.elim] at *
    omega
  · have h1 := b.fresh k hk
    have h2 := hi k
    show s.led.refs k + i.holds k = 0
    omega

theorem fileIds_sub (p : CProp) (c : Nat) (h : c ∈ fileIds p) : 0 < listHolds (some p) c := by
  unfold fileIds at h
  simp only [listHolds, Option.elim]
  cases hp : p.2 with
  | null => rw [hp] at h; simp only [List.mem_singleton] at h; rw [if_pos h]; omega
  | own n => rw [hp] at h; simp only [List.mem_singleton] at h; rw [if_pos h]; omega
  | log d i =>
    rw [hp] at h
    simp only [List.mem_cons, List.not_mem_nil, or_false] at h
    simp only [CInfo.holds]
    rcases h with h | h
    · rw [if_pos h]; omega
    · rw [if_pos h]; omega

theorem bal_file {base : Nat → Nat} {s : St} {t : Tally} (b : Bal base s t) {l : Led} {ids : List Nat}
    (hl : l = s.led.plus (fun k => ids.count k) 0) (hi : ∀ c ∈ ids, 0 < s.led.refs c) :
    Bal base { s with files := s.files ++ [some ids], led := l } t := by
  subst hl
  refine ⟨⟨fun k => ?_, ?_⟩, fun k hk => ?_, b.native⟩
  · have := b.refs k
    simp only [St.inUse, Led.plus, List.map_append, List.map_cons, List.map_nil, List.sum_append, List.sum_cons, List.sum_nil, fileHolds,
      Option.elim] at *
    omega
  · exact b.blocks
  · have h1 := b.fresh k hk
    show s.led.refs k + ids.count k = 0
    have : ids.count k = 0 := by
      rw [List.count_eq_zero]
      intro h
      have := hi k h
      omega
    omega

theorem minus {l : Led} {f : Nat → Nat} {n : Nat} (hf : ∀ k, f k ≤ l.refs k) (hn : n ≤ l.blocks) :
    ∃ m : Led, l = m.plus f n ∧ (∀ k, m.refs k + f k = l.refs k) ∧ m.blocks + n = l.blocks := by
  refine ⟨⟨fun k => l.refs k - f k, l.blocks - n⟩, Led.ext' (fun k => ?_) ?_, fun k => ?_, ?_⟩
  · have := hf k; simp only [Led.plus]; omega
  · simp only [Led.plus]; omega
  · have := hf k; simp only; omega
  · simp only; omega

theorem bal_step {base : Nat → Nat} {s : St} {t : Tally} (b : Bal base s t) (op : Op) (hf : Fair s t op) :
    Bal base (s.step op).1 (tallyStep s t op (s.step op).2) := by
  cases op with
  | register => exact (bal_register b).1
  | create =>
    have h0 : 0 < s.led.refs 0 := by
      have := b.refs 0
      have := b.native
      omega
    refine bal_list b (p := (0, .null)) ?_ h0 (fun k hk => by simp [CInfo.holds] at hk)
    rw [inc_plus h0]
    exact Led.ext' (fun k => by simp [Led.plus, listHolds, CInfo.holds]) rfl
  | setVol h c i => exact bal_setVol b h c hf
  | setVolLog h =>
    simp only [St.step, St.setVolLog, tallyStep]
    obtain ⟨b1, e1, e2, e3⟩ := bal_register b
    have b2 : Bal base s.register.1 (if s.g = none then t.lose (fun k => if k = s.register.2 then 1 else 0) 0 else t) := by
      by_cases hg : s.g = none
      · rw [if_pos hg] at b1 ⊢
        refine ⟨⟨fun k => ?_, b1.blocks⟩, b1.fresh, b1.native⟩
        have := b1.refs k
        simp only [Tally.give, Tally.lose] at *
        omega
      · rw [if_neg hg] at b1 ⊢
        exact b1
    have e4 : s.register.1.list h = s.list h := by unfold St.list; rw [e1]
    rw [e4]
    cases hl : s.list h with
    | none => exact b2
    | some old =>
      simp only
      have hv := list_valid b2.toBalanced (e4.trans hl)
      have hi : old.2.Valid (s.register.1.led.plus (fun k => if k = old.1 then 1 else 0) 0) := by
        intro k hk
        have := hv.2 k hk
        simp only [Led.plus]
        omega
      rw [inc_plus hv.1, copyInfo_eq _ hi]
      refine bal_setVol (bal_give b2 (f := listHolds (some old)) (n := old.2.size) ?_ ?_ _ rfl) h _ ?_
      · refine Led.ext' (fun k => ?_) ?_
        · simp only [Led.plus, listHolds, Option.elim]; omega
        · simp only [Led.plus]; omega
      · intro k hk
        simp only [listHolds, Option.elim] at hk
        by_cases hk' : k = old.1
        · rw [hk']; exact hv.1
        · rw [if_neg hk'] at hk
          exact hv.2 k (by omega)
      · intro k hk
        simp only [CInfo.holds] at hk
        simp only [Led.plus]
        by_cases hk' : k = old.1
        · rw [if_pos hk']; omega
        · rw [if_neg hk'] at hk
          have := hv.2 k (by omega)
          omega
  | copyList h =>
    simp only [St.step]
    cases hl : s.list h with
    | none => exact b
    | some p =>
      have hv := list_valid b.toBalanced hl
      simp only [takeProp_eq hv.1 hv.2]
      exact bal_list b rfl hv.1 hv.2
  | closeList h =>
    simp only [St.step]
    cases hl : s.list h with
    | none => exact b
    | some p =>
      have hn := le_sum (fun o : Option CProp => o.elim 0 (fun p => p.2.size)) (List.mem_of_getElem? (join_some hl))
      have hb := b.blocks
      obtain ⟨m, m1, m2, m3⟩ := minus (l := s.led) (f := listHolds (some p)) (n := p.2.size)
        (fun k => by have := list_le hl k; have := b.refs k; omega) (by unfold St.usedBlocks at hb; simp only [Option.elim] at *; omega)
      have e : dropProp p s.led = m := by rw [m1]; exact dropProp_eq p m
      simp only [e]
      refine ⟨⟨fun k => ?_, ?_⟩, fun k hk => ?_, b.native⟩
      · have h1 := b.refs k
        have h2 := m2 k
        have h3 := sum_set (listHolds · k) s.lists h (some p) none (join_some hl)
        simp only [St.inUse, tallyStep] at *
        simp only [listHolds, Option.elim] at *
        omega
      · have h3 := sum_set (fun o : Option CProp => o.elim 0 (fun p => p.2.size)) s.lists h (some p) none (join_some hl)
        simp only [St.usedBlocks, Option.elim, tallyStep] at *
        omega
      · have h1 := b.fresh k hk
        have h2 := m2 k
        show m.refs k = 0
        omega
  | getId h =>
    simp only [St.step]
    cases hl : s.list h with
    | none => exact b
    | some p =>
      have hv := list_valid b.toBalanced hl
      simp only
      rw [if_neg (by omega)]
      refine ⟨⟨fun k => ?_, ?_⟩, fun k hk => ?_, b.native⟩
      · have := b.refs k
        simp only [inc_plus hv.1, Led.plus, tallyStep, Tally.give]
        show _ = base k + s.inUse k + _ + _
        omega
      · simp only [inc_plus hv.1, Led.plus, tallyStep, Tally.give]
        exact b.blocks
      · have := b.fresh k hk
        have hk' : k ≠ p.1 := by rintro rfl; omega
        simp only [inc_plus hv.1, Led.plus, if_neg hk']
        exact this
  | getInfo h =>
    simp only [St.step]
    cases hl : s.list h with
    | none => exact b
    | some p =>
      have hv := list_valid b.toBalanced hl
      simp only [copyInfo_eq _ hv.2]
      exact bal_info b rfl hv.2
  | freeInfo n =>
    simp only [St.step]
    cases hl : (s.infos[n]?).join with
    | none => exact b
    | some i =>
      have hn := le_sum (fun o : Option CInfo => o.elim 0 CInfo.size) (List.mem_of_getElem? (join_some hl))
      have hb := b.blocks
      have hh : ∀ k, i.holds k ≤ s.inUse k := by
        intro k
        have := le_sum (infoHolds · k) (List.mem_of_getElem? (join_some hl))
        unfold St.inUse
        simp only [infoHolds, Option.elim] at *
        omega
      obtain ⟨m, m1, m2, m3⟩ := minus (l := s.led) (f := i.holds) (n := i.size)
        (fun k => by have := hh k; have := b.refs k; omega) (by unfold St.usedBlocks at hb; simp only [Option.elim] at *; omega)
      have e : Conn.freeInfo i s.led = m := by rw [m1]; exact freeInfo_eq i m
      simp only [e]
      refine ⟨⟨fun k => ?_, ?_⟩, fun k hk => ?_, b.native⟩
      · have h1 := b.refs k
        have h2 := m2 k
        have h3 := sum_set (infoHolds · k) s.infos n (some i) none (join_some hl)
        simp only [St.inUse, tallyStep] at *
        simp only [infoHolds, Option.elim] at *
        omega
      · have h3 := sum_set (fun o : Option CInfo => o.elim 0 CInfo.size) s.infos n (some i) none (join_some hl)
        simp only [St.usedBlocks, Option.elim, tallyStep] at *
        omega
      · have h1 := b.fresh k hk
        have h2 := m2 k
        show m.refs k = 0
        omega
  | closeId c =>
    have hc : 0 < t.app c := hf
    have h0 := b.refs c
    simp only [St.step]
    rw [if_neg (by omega)]
    simp only [tallyStep]
    unfold Led.dec
    rw [if_neg (by omega)]
    refine ⟨⟨fun k => ?_, b.blocks⟩, fun k hk => ?_, b.native⟩
    · have := b.refs k
      show (if k = c then s.led.refs c - 1 else s.led.refs k) = base k + s.inUse k + (t.app k - if k = c then 1 else 0) + t.lost k
      by_cases hk : k = c
      · rw [if_pos hk, if_pos hk, hk]
        omega
      · rw [if_neg hk, if_neg hk]
        omega
    · have := b.fresh k hk
      show (if k = c then s.led.refs c - 1 else s.led.refs k) = 0
      by_cases hk : k = c
      · rw [if_pos hk]
        rw [hk] at this
        omega
      · rw [if_neg hk]
        exact this
  | parse c i =>
    simp only [St.step]
    by_cases ha : (CInfo.log c i).ids.any (fun k => s.led.refs k = 0) = true
    · rw [if_pos ha]
      exact b
    rw [if_neg ha]
    have hv : (CInfo.log c i).Valid s.led := ids_valid (by simpa using ha)
    simp only [tallyStep, parseInfo_eq _ hv]
    have b1 := bal_give b (f := (CInfo.log c i).holds) (n := 0) rfl (fun k hk => hv k hk) _ rfl
    refine bal_info b1 (i := .log c i) (Led.ext' (fun k => ?_) ?_) (fun k hk => ?_)
    · simp only [Led.plus]; omega
    · simp only [Led.plus]; omega
    · have := hv k hk
      simp only [Led.plus]
      omega
  | openFile h =>
    simp only [St.step]
    cases hl : s.list h with
    | none => exact b
    | some p =>
      have hv := list_valid b.toBalanced hl
      have hids : ∀ c ∈ fileIds p, 0 < s.led.refs c := by
        intro c hc
        have h1 := fileIds_sub p c hc
        have h2 := list_le hl c
        have h3 := b.refs c
        omega
      simp only
      rw [if_neg (by simp only [List.any_eq_true, decide_eq_true_eq, not_exists, not_and]; intro c hc; have := hids c hc; omega)]
      simp only [tallyStep, hl]
      unfold openInfo
      cases hp : p.2 with
      | null =>
        simp only
        exact bal_file b (incs_eq _ hids) hids
      | own n =>
        simp only
        exact bal_file b (incs_eq _ hids) hids
      | log d i =>
        rw [hp] at hv
        simp only [copyInfo_eq _ hv.2]
        have e : (Led.mk (s.led.plus (CInfo.log d i).holds (CInfo.log d i).size).refs
            ((s.led.plus (CInfo.log d i).holds (CInfo.log d i).size).blocks - 1)) =
            s.led.plus (CInfo.log d i).holds i.size := by
          refine Led.ext' (fun k => rfl) ?_
          simp only [Led.plus, CInfo.size]
          omega
        have b1 := bal_give b (f := (CInfo.log d i).holds) (n := i.size) e (fun k hk => hv.2 k hk) _ rfl
        refine bal_file b1 (incs_eq _ ?_) ?_
        · intro c hc
          have := hids c hc
          simp only [Led.plus]
          omega
        · intro c hc
          have := hids c hc
          simp only [Led.plus]
          omega
  | closeFile n =>
    simp only [St.step]
    cases hl : (s.files[n]?).join with
    | none => exact b
    | some ids =>
      have hh : ∀ k, ids.count k ≤ s.inUse k := by
        intro k
        have := le_sum (fileHolds · k) (List.mem_of_getElem? (join_some hl))
        unfold St.inUse
        simp only [fileHolds, Option.elim] at *
        omega
      obtain ⟨m, m1, m2, m3⟩ := minus (l := s.led) (f := fun k => ids.count k) (n := 0)
        (fun k => by have := hh k; have := b.refs k; omega) (by omega)
      have e : ids.foldl Led.dec s.led = m := by rw [m1]; exact decs_eq ids m
      simp only [e]
      refine ⟨⟨fun k => ?_, ?_⟩, fun k hk => ?_, b.native⟩
      · have h1 := b.refs k
        have h2 := m2 k
        have h3 := sum_set (fileHolds · k) s.files n (some ids) none (join_some hl)
        simp only [St.inUse, tallyStep] at *
        simp only [fileHolds, Option.elim] at *
        omega
      · have h1 := b.blocks
        show m.blocks = s.usedBlocks + t.lostBlocks
        omega
      · have h1 := b.fresh k hk
        have h2 := m2 k
        show m.refs k = 0
        omega

theorem bal_run {base : Nat → Nat} : ∀ (ops : List Op) {s : St} {t : Tally}, Bal base s t → FairRun s ops t →
    Bal base (s.run ops).1 (tally s ops t)
  | [], _, _, b, _ => b
  | op :: ops, _, _, b, h => bal_run ops (bal_step b op h.1) h.2

theorem bal_start {base : Nat → Nat} {next : Nat} (hb : Base base next) (plug : Option Nat) : Bal base (start base plug next) .zero :=
  ⟨⟨fun _ => rfl, rfl⟩, hb.fresh, hb.native⟩

end Verif.Conn
