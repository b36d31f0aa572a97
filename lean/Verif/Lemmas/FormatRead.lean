import Verif.Lemmas.Format

namespace Verif

open Spec (BlkOK)
open Spec.Format

/-! ### Numbers -/

theorem int_nat_inj {w a b : Nat} (ha : a < 256 ^ w) (hb : b < 256 ^ w) (h : int w (a : Int) = int w (b : Int)) :
    a = b := by
  rw [int_nat, int_nat] at h
  exact leN_inj ha hb h

theorem int8_inj {a b : Int} (h1 : -(2 ^ 63) ≤ a) (h2 : a < 2 ^ 63) (h3 : -(2 ^ 63) ≤ b) (h4 : b < 2 ^ 63)
    (h : int 8 a = int 8 b) : a = b := by
  rw [int_eq, int_eq] at h
  have e1 : unsle (sleN 8 a) = a := unsle_sleN (by omega) (by omega)
  have e2 : unsle (sleN 8 b) = b := unsle_sleN (by omega) (by omega)
  rw [← e1, ← e2, h]

theorem ints_inj {a b : List Nat} (ha : ∀ w ∈ a, w < 2 ^ 64) (hb : ∀ w ∈ b, w < 2 ^ 64) (h : ints a = ints b) :
    a = b := by
  rw [ints_eq, ints_eq] at h
  exact putWords_inj ha hb h

@[simp] theorem ints_length (a : List Nat) : (ints a).length = 8 * a.length := by
  rw [ints_eq, putWords_length]

/-! ### Selections -/

theorem flatMap_len_inj {α : Type} {n : Nat} (f : α → List Nat) {as bs : List α} (ha : ∀ a ∈ as, (f a).length = n)
    (hb : ∀ b ∈ bs, (f b).length = n) (hl : as.length = bs.length) (h : as.flatMap f = bs.flatMap f) :
    as.map f = bs.map f := by
  induction as generalizing bs with
  | nil =>
    cases bs with
    | nil => rfl
    | cons b bs => simp at hl
  | cons a as ih =>
    cases bs with
    | nil => simp at hl
    | cons b bs =>
      simp only [List.flatMap_cons] at h
      have := List.append_inj h (by rw [ha a (by simp), hb b (by simp)])
      simp only [List.map_cons]
      rw [this.1, ih (fun x hx => ha x (by simp [hx])) (fun x hx => hb x (by simp [hx])) (by simpa using hl) this.2]

theorem flatMap_len {α : Type} {n : Nat} (f : α → List Nat) {as : List α} (ha : ∀ a ∈ as, (f a).length = n) :
    (as.flatMap f).length = n * as.length := by
  induction as with
  | nil => rfl
  | cons a as ih =>
    rw [List.flatMap_cons, List.length_append, ha a (by simp), ih (fun x hx => ha x (by simp [hx])), List.length_cons,
      Nat.mul_add, Nat.mul_one, Nat.add_comm]

theorem blks_ext {as bs : List Blk} (h1 : as.map Blk.start = bs.map Blk.start) (h2 : as.map Blk.count = bs.map Blk.count) :
    as = bs := by
  induction as generalizing bs with
  | nil =>
    cases bs with
    | nil => rfl
    | cons b bs => simp at h1
  | cons a as ih =>
    cases bs with
    | nil => simp at h1
    | cons b bs =>
      simp only [List.map_cons, List.cons.injEq] at h1 h2
      rw [ih h1.2 h2.2]
      cases a; cases b
      simp_all

theorem coords_inj {n : Nat} {as bs : List Blk} (ha : ∀ b ∈ as, BlkOK n b) (hb : ∀ b ∈ bs, BlkOK n b)
    (hl : as.length = bs.length) (h : ints (coords actual as) = ints (coords actual bs)) : as = bs := by
  have hw : ∀ cs : List Blk, (∀ b ∈ cs, BlkOK n b) → ∀ w ∈ coords actual cs, w < 2 ^ 64 := by
    intro cs hc w hm
    simp only [coords, actual, if_true, List.mem_append, List.mem_flatMap] at hm
    rcases hm with ⟨b, hb, hm⟩ | ⟨b, hb, hm⟩
    · exact (hc b hb).s64 w hm
    · exact (hc b hb).c64 w hm
  have := ints_inj (hw as ha) (hw bs hb) h
  simp only [coords, actual, if_true] at this
  have h2 := List.append_inj this (by
    rw [flatMap_len (n := n) _ (fun b hx => (ha b hx).hs), flatMap_len (n := n) _ (fun b hx => (hb b hx).hs), hl])
  exact blks_ext (flatMap_len_inj _ (fun b hx => (ha b hx).hs) (fun b hx => (hb b hx).hs) hl h2.1)
    (flatMap_len_inj _ (fun b hx => (ha b hx).hc) (fun b hx => (hb b hx).hc) hl h2.2)

theorem mix_inj {w c c' x x' : Nat} (h1 : x < w) (h2 : x' < w) (h : c * w + x = c' * w + x') : c = c' ∧ x = x' := by
  have e1 : (c * w + x) / w = c := by
    rw [Nat.mul_comm, Nat.mul_add_div (by omega), Nat.div_eq_of_lt h1, Nat.add_zero]
  have e2 : (c' * w + x') / w = c' := by
    rw [Nat.mul_comm, Nat.mul_add_div (by omega), Nat.div_eq_of_lt h2, Nat.add_zero]
  have hc : c = c' := by rw [← e1, ← e2, h]
  subst hc
  exact ⟨rfl, by omega⟩

theorem code_inj {ws cs ds : List Nat} (hc : cs.length = ws.length + 1) (hd : ds.length = ws.length + 1)
    (h1 : Decodable ws cs) (h2 : Decodable ws ds) (h : code ws cs = code ws ds) : cs = ds := by
  induction ws generalizing cs ds with
  | nil =>
    match cs, ds, hc, hd with
    | [c], [d], _, _ =>
      simp [code] at h
      rw [h]
  | cons w ws ih =>
    match cs, ds, hc, hd with
    | c :: cs, d :: ds, hc, hd =>
      rw [code_cons, code_cons] at h
      have := mix_inj h1.1 h2.1 h
      rw [this.1, ih (by simpa using hc) (by simpa using hd) h1.2 h2.2 this.2]

theorem map_inj_on {α β : Type} {f : α → β} {as bs : List α}
    (hf : ∀ a ∈ as, ∀ b ∈ bs, f a = f b → a = b) (h : as.map f = bs.map f) : as = bs := by
  induction as generalizing bs with
  | nil =>
    cases bs with
    | nil => rfl
    | cons b bs => simp at h
  | cons a as ih =>
    cases bs with
    | nil => simp at h
    | cons b bs =>
      simp only [List.map_cons, List.cons.injEq] at h
      rw [hf a (by simp) b (by simp) h.1, ih (fun x hx y hy => hf x (by simp [hx]) y (by simp [hy])) h.2]

theorem count4_inj {a b : Nat} {x y : List Byte} (ha : a < 2 ^ 31) (hb : b < 2 ^ 31)
    (h : int 4 (a : Int) ++ x = int 4 (b : Int) ++ y) : a = b ∧ x = y := by
  have := List.append_inj h (by simp)
  exact ⟨int_nat_inj (by omega) (by omega) this.1, this.2⟩

theorem sel_inj {n : Nat} {s t : Sel} (hs : s.Fits n) (ht : t.Fits n) {isRec : Bool} (h1 : s.isMulti = t.isMulti)
    (h2 : s.isCoded = t.isCoded) (h3 : s.isRef = t.isRef) (h : s.text actual isRec = t.text actual isRec) : s = t := by
  cases s with
  | single b =>
    cases t with
    | single b' =>
      simp only [Sel.text, actual, Bool.and_false, Bool.false_eq_true, if_false, List.nil_append] at h
      have := coords_inj (as := [b]) (bs := [b']) (n := n) (by intro c hc; rw [List.mem_singleton.mp hc]; exact hs)
        (by intro c hc; rw [List.mem_singleton.mp hc]; exact ht) rfl h
      simp only [List.cons.injEq, and_true] at this
      rw [this]
    | multi bs => simp [Sel.isMulti] at h1
    | coded ws bs => simp [Sel.isMulti] at h1
    | ref m c o => simp [Sel.isRef] at h3
  | multi bs =>
    cases t with
    | single b' => simp [Sel.isMulti] at h1
    | multi bs' =>
      have h4 := count4_inj hs.2.1 ht.2.1 h
      rw [coords_inj hs.2.2 ht.2.2 h4.1 h4.2]
    | coded ws bs' => simp [Sel.isCoded] at h2
    | ref m c o => simp [Sel.isRef] at h3
  | coded ws bs =>
    cases t with
    | single b' => simp [Sel.isMulti] at h1
    | multi bs' => simp [Sel.isCoded] at h2
    | coded ws' bs' =>
      obtain ⟨_, a1, a2, a3, a4⟩ := hs
      obtain ⟨_, b1, b2, b3, b4⟩ := ht
      simp only [Sel.text, actual, if_true, List.append_assoc] at h
      have h4 := count4_inj a1 b1 h
      have h5 := List.append_inj h4.2 (by simp only [ints_length]; omega)
      have hws := ints_inj a3 b3 h5.1
      subst hws
      have hcodes : ∀ cs : List Blk, codes actual ws cs = cs.map (code1 ws) ++ cs.map (fun b => code ws b.count) := by
        intro cs
        simp [codes, actual, code2]
      have h6 : ints (codes actual ws bs) = ints (codes actual ws bs') := h5.2
      rw [hcodes, hcodes] at h6
      have hlt : ∀ cs : List Blk, (∀ b ∈ cs, b.start.length = n ∧ b.count.length = n ∧ code ws b.start < 2 ^ 64 ∧
          code ws b.count < 2 ^ 64 ∧ Decodable ws b.start ∧ Decodable ws b.count) →
          ∀ w ∈ cs.map (code1 ws) ++ cs.map (fun b => code ws b.count), w < 2 ^ 64 := by
        intro cs hc w hw
        rcases List.mem_append.mp hw with hw | hw
        · obtain ⟨b, hb, rfl⟩ := List.mem_map.mp hw
          exact (hc b hb).2.2.1
        · obtain ⟨b, hb, rfl⟩ := List.mem_map.mp hw
          exact (hc b hb).2.2.2.1
      have h7 := List.append_inj (ints_inj (hlt bs a4) (hlt bs' b4) h6) (by simp [h4.1])
      have h8 : bs = bs' := by
        refine blks_ext ?_ ?_
        · have : (bs.map Blk.start).map (code ws) = (bs'.map Blk.start).map (code ws) := by
            rw [List.map_map, List.map_map]; exact h7.1
          refine map_inj_on ?_ this
          intro x hx y hy e
          obtain ⟨b, hb, rfl⟩ := List.mem_map.mp hx
          obtain ⟨b', hb', rfl⟩ := List.mem_map.mp hy
          have u := a4 b hb
          have u' := b4 b' hb'
          exact code_inj (by omega) (by omega) u.2.2.2.2.1 u'.2.2.2.2.1 e
        · have : (bs.map Blk.count).map (code ws) = (bs'.map Blk.count).map (code ws) := by
            rw [List.map_map, List.map_map]; exact h7.2
          refine map_inj_on ?_ this
          intro x hx y hy e
          obtain ⟨b, hb, rfl⟩ := List.mem_map.mp hx
          obtain ⟨b', hb', rfl⟩ := List.mem_map.mp hy
          have u := a4 b hb
          have u' := b4 b' hb'
          exact code_inj (by omega) (by omega) u.2.2.2.2.2 u'.2.2.2.2.2 e
      rw [h8]
    | ref m c o => simp [Sel.isRef] at h3
  | ref m c o =>
    cases t with
    | single b' => simp [Sel.isRef] at h3
    | multi bs' => simp [Sel.isRef] at h3
    | coded ws' bs' => simp [Sel.isRef] at h3
    | ref m' c' o' =>
      have ho := int8_inj hs.1 hs.2 ht.1 ht.2 h
      simp only [Sel.isMulti, Sel.isCoded] at h1 h2
      rw [ho, h1, h2]

/-! ### Entries -/

theorem flag_lt (e : Entry) : e.flag < 64 := by
  unfold Entry.flag
  split <;> split <;> split <;> split <;> omega

theorem flag_inj {e e' : Entry} (h : e.flag = e'.flag) : e.sel.isMulti = e'.sel.isMulti ∧
    e.sel.isCoded = e'.sel.isCoded ∧ e.sel.isRef = e'.sel.isRef ∧ e.recnum.isSome = e'.recnum.isSome := by
  unfold Entry.flag at h
  revert h
  generalize e.sel.isMulti = a1
  generalize e'.sel.isMulti = a2
  generalize e.sel.isCoded = b1
  generalize e'.sel.isCoded = b2
  generalize e.sel.isRef = c1
  generalize e'.sel.isRef = c2
  generalize e.recnum.isSome = d1
  generalize e'.recnum.isSome = d2
  revert a1 a2 b1 b2 c1 c2 d1 d2
  decide

theorem text_length (v : Dialect) (e : Entry) : (e.text v).length = 28 + (e.body v).length := by
  simp [Entry.text]; omega

theorem entry_inj {nd : Nat → Nat} {e e' : Entry} (h : e.Fits actual (nd e.did)) (h' : e'.Fits actual (nd e'.did))
    {r r' : List Byte} (ht : e.text actual ++ r = e'.text actual ++ r') : e = e' ∧ r = r' := by
  have hlen : (e.text actual).length = (e'.text actual).length := by
    rw [text_length, text_length]
    have h1 := ht
    simp only [Entry.text, List.append_assoc] at h1
    exact (count4_inj h.size h'.size h1).1
  obtain ⟨ht, hr⟩ := List.append_inj ht hlen
  refine ⟨?_, hr⟩
  simp only [Entry.text, List.append_assoc] at ht
  have h1 := count4_inj h.size h'.size ht
  have h2 := count4_inj h.did h'.did h1.2
  have f1 := flag_lt e
  have f2 := flag_lt e'
  have h3 := count4_inj (by omega) (by omega) h2.2
  have h4 := List.append_inj h3.2 (by simp)
  have h5 := List.append_inj h4.2 (by simp)
  have hfo := int8_inj (by have := h.foff.1; omega) h.foff.2 (by have := h'.foff.1; omega) h'.foff.2 h4.1
  have hfs := int8_inj (by have := h.fsize.1; omega) h.fsize.2 (by have := h'.fsize.1; omega) h'.fsize.2 h5.1
  obtain ⟨g1, g2, g3, g4⟩ := flag_inj h3.1
  have hb : e.body actual = e'.body actual := h5.2
  have hrec : e.recnum = e'.recnum ∧ e.sel.text actual e.recnum.isSome = e'.sel.text actual e'.recnum.isSome := by
    unfold Entry.body at hb
    cases hn : e.recnum with
    | none =>
      cases hn' : e'.recnum with
      | none => rw [hn, hn'] at hb; exact ⟨rfl, hb⟩
      | some m => rw [hn, hn'] at g4; cases g4
    | some m =>
      cases hn' : e'.recnum with
      | none => rw [hn, hn'] at g4; cases g4
      | some m' =>
        rw [hn, hn'] at hb
        have := List.append_inj hb (by simp)
        have hm := int_nat_inj (w := 8) (by have := (h.recn m hn).1; omega) (by have := (h'.recn m' hn').1; omega) this.1
        rw [hm]
        exact ⟨rfl, this.2⟩
  have hs1 := h.sel
  have hs2 := h'.sel
  rw [← h2.1, ← hrec.1] at hs2
  have hsel := sel_inj hs1 hs2 g1 g2 g3 (isRec := e.recnum.isSome) (by
    have := hrec.2
    rw [← hrec.1] at this
    exact this)
  obtain ⟨d1, d2, d3, d4, d5⟩ := e
  obtain ⟨e1, e2, e3, e4, e5⟩ := e'
  simp only at hsel hrec hfo hfs h2
  rw [hsel, hrec.1, hfo, hfs, h2.1]

theorem section_inj {nd : Nat → Nat} {es es' : List Entry} (h : ∀ e ∈ es, e.Fits actual (nd e.did))
    (h' : ∀ e ∈ es', e.Fits actual (nd e.did)) (ht : section_ actual es = section_ actual es') : es = es' := by
  induction es generalizing es' with
  | nil =>
    cases es' with
    | nil => rfl
    | cons e' es' =>
      have := congrArg List.length ht
      simp only [section_, List.flatMap_cons, List.flatMap_nil, List.length_append, text_length, List.length_nil] at this
      omega
  | cons e es ih =>
    cases es' with
    | nil =>
      have := congrArg List.length ht
      simp only [section_, List.flatMap_cons, List.flatMap_nil, List.length_append, text_length, List.length_nil] at this
      omega
    | cons e' es' =>
      simp only [section_, List.flatMap_cons] at ht
      have := entry_inj (h e (by simp)) (h' e' (by simp)) ht
      rw [this.1, ih (fun x hx => h x (by simp [hx])) (fun x hx => h' x (by simp [hx])) this.2]

/-! ### Datasets -/

theorem ends_inj {base : Nat} {ns ms : List Nat} (h : ends base ns = ends base ms) : ns = ms := by
  rw [← inscan_ends, ← inscan_ends] at h
  induction ns generalizing base ms with
  | nil =>
    cases ms with
    | nil => rfl
    | cons m ms => simp [inscan] at h
  | cons n ns ih =>
    cases ms with
    | nil => simp [inscan] at h
    | cons m ms =>
      simp only [inscan, List.cons.injEq] at h
      have : n = m := by omega
      subst this
      rw [ih h.2]

theorem ends_le {base : Nat} {ns : List Nat} : ∀ x ∈ ends base ns, x ≤ base + ns.sum := by
  rw [← inscan_ends]
  induction ns generalizing base with
  | nil => intro x hx; cases hx
  | cons n ns ih =>
    intro x hx
    simp only [inscan, List.mem_cons] at hx
    simp only [List.sum_cons]
    rcases hx with hx | hx
    · omega
    · have := ih x hx; omega

@[simp] theorem secEnds_length (base : Nat) (ns : List Nat) : (ends base ns).length = ns.length := by simp [ends]

theorem flatMap_sections {ss ss' : List (List Entry)}
    (hl : ss.map (fun es => (section_ actual es).length) = ss'.map (fun es => (section_ actual es).length))
    (h : ss.flatMap (section_ actual) = ss'.flatMap (section_ actual)) :
    ss.map (section_ actual) = ss'.map (section_ actual) := by
  induction ss generalizing ss' with
  | nil =>
    cases ss' with
    | nil => rfl
    | cons s ss' => simp at hl
  | cons s ss ih =>
    cases ss' with
    | nil => simp at hl
    | cons s' ss' =>
      simp only [List.map_cons, List.cons.injEq, List.flatMap_cons] at hl h ⊢
      have := List.append_inj h hl.1
      exact ⟨this.1, ih hl.2 this.2⟩

theorem text_len (ss : List (List Entry)) : (text actual ss).length =
    8 + 8 * ss.length + (ss.map (fun es => (section_ actual es).length)).sum := by
  simp [text, decomp, actual, List.length_flatMap]
  omega

theorem text_inj {nd : Nat → Nat} {ss ss' : List (List Entry)} (h : ∀ es ∈ ss, ∀ e ∈ es, e.Fits actual (nd e.did))
    (h' : ∀ es ∈ ss', ∀ e ∈ es, e.Fits actual (nd e.did)) (hs : (text actual ss).length < 2 ^ 63)
    (ht : text actual ss = text actual ss') : ss = ss' := by
  have hs' : (text actual ss').length < 2 ^ 63 := by rw [← ht]; exact hs
  rw [text_len] at hs hs'
  unfold text decomp at ht
  simp only [show actual.ends0 = true from rfl, show actual.word = 8 from rfl, if_true, List.length_map, List.append_assoc] at ht
  have h1 := List.append_inj ht (by simp)
  have hn : ss.length = ss'.length := int_nat_inj (w := 8) (by omega) (by omega) h1.1
  have h2 := List.append_inj h1.2 (by simp [hn])
  have hsz : ss.map (fun es => (section_ actual es).length) = ss'.map (fun es => (section_ actual es).length) := by
    have := ints_inj (fun w hw => by have := ends_le w hw; omega) (fun w hw => by have := ends_le w hw; omega) h2.1
    rw [hn] at this
    exact ends_inj this
  refine map_inj_on ?_ (flatMap_sections hsz h2.2)
  intro es hes es' hes' e
  exact section_inj (h es hes) (h' es' hes') e

/-! ### Other dialects -/

theorem leN_add (a b n : Nat) : leN (a + b) n = leN a n ++ leN b (n / 256 ^ a) := by
  induction a generalizing n with
  | zero => simp [leN]
  | succ a ih =>
    rw [show a + 1 + b = (a + b) + 1 by omega, leN, leN, ih, Nat.div_div_eq_div_mul, Nat.pow_succ, Nat.mul_comm 256]
    rfl

theorem putWords_drop (ws : List Nat) (k : Nat) : (putWords ws).drop (8 * k) = putWords (ws.drop k) := by
  induction k generalizing ws with
  | zero => rfl
  | succ k ih =>
    cases ws with
    | nil => simp [putWords]
    | cons w ws =>
      rw [putWords, List.drop_succ_cons, ← ih, show 8 * (k + 1) = 8 + 8 * k by omega, ← List.drop_drop]
      rw [drop_app _ _ _ (by simp)]

/-- Reading small 8-byte words at an odd multiple of 4 gives zero. -/
theorem odd_zero {W : List Nat} {F G : List Byte} {p : List Byte} {E : List Nat} (hW : ∀ w ∈ W, w < 2 ^ 32)
    (hp : p.length = 4) (hE : E.length < W.length) (h : putWords W ++ F = p ++ ints E ++ G) : G.take 4 = leN 4 0 := by
  have h1 : (putWords W ++ F).drop (8 * E.length + 4) = G := by
    rw [h]
    exact drop_app _ _ _ (by simp [hp]; omega)
  rw [← h1]
  have h2 : W.drop E.length = W[E.length] :: W.drop (E.length + 1) := (List.drop_eq_getElem_cons hE)
  rw [← List.drop_drop, List.drop_append_of_le_length (by simp; omega), putWords_drop, h2, putWords]
  have h3 : leN 8 W[E.length] = leN 4 W[E.length] ++ leN 4 0 := by
    rw [leN_add 4 4, Nat.div_eq_of_lt (by have := hW _ (List.getElem_mem hE); omega)]
  rw [h3]
  simp only [List.append_assoc]
  rw [drop_app _ _ _ (by simp), take_app _ _ _ (by simp)]

theorem sections_cases (v : Dialect) (ss : List (List Entry)) : ss.flatMap (section_ v) = [] ∨
    ∃ es ∈ ss, ∃ e ∈ es, ∃ rest, ss.flatMap (section_ v) = e.text v ++ rest := by
  induction ss with
  | nil => exact Or.inl rfl
  | cons es ss ih =>
    cases es with
    | nil =>
      rcases ih with ih | ⟨es, h1, e, h2, r, h3⟩
      · exact Or.inl (by rw [List.flatMap_cons, ih]; rfl)
      · exact Or.inr ⟨es, by simp [h1], e, h2, r, by rw [List.flatMap_cons, h3]; rfl⟩
    | cons e es =>
      refine Or.inr ⟨e :: es, by simp, e, by simp, section_ v es ++ ss.flatMap (section_ v), ?_⟩
      rw [List.flatMap_cons]
      simp [section_]

theorem word4_ne {v : Dialect} (hv : v.word = 4) {ss ss' : List (List Entry)} (hs : (text actual ss).length < 2 ^ 31)
    (hl : ss'.length < 2 ^ 31) (hf : ∀ es ∈ ss', ∀ e ∈ es, 28 + (e.body v).length < 2 ^ 31) : text v ss' ≠ text actual ss := by
  intro h
  rw [text_len] at hs
  -- the number of sections is read as it is meant
  obtain ⟨E, hE, hd⟩ : ∃ E : List Nat, E.length ≤ ss'.length ∧
      text v ss' = int 4 ss'.length ++ ints E ++ ss'.flatMap (section_ v) := by
    unfold text decomp
    rw [hv]
    split
    · exact ⟨ends (4 + 8 * ss'.length) (ss'.map (fun es => (section_ v es).length)), by simp, by rw [List.length_map]⟩
    · exact ⟨(ends (4 + 8 * (ss'.length - 1)) (ss'.map (fun es => (section_ v es).length))).drop 1, by simp,
        by rw [List.length_map]⟩
  have ha : text actual ss = putWords (ss.length :: ends (8 + 8 * ss.length) (ss.map (fun es => (section_ actual es).length)))
      ++ ss.flatMap (section_ actual) := by
    unfold text decomp
    simp only [show actual.ends0 = true from rfl, show actual.word = 8 from rfl, if_true, List.length_map]
    rw [ints_eq, int_nat]
    rfl
  rw [hd, ha] at h
  have hn : ss.length = ss'.length := by
    have h1 := congrArg (List.take 4) h
    rw [int_nat] at h1
    rw [List.append_assoc, take_app _ _ _ (by simp)] at h1
    have h2 : leN 8 ss.length = leN 4 ss.length ++ leN 4 (ss.length / 256 ^ 4) := leN_add 4 4 _
    rw [putWords, h2] at h1
    simp only [List.append_assoc] at h1
    rw [take_app _ _ _ (by simp)] at h1
    exact (leN_inj (by omega) (by omega) h1).symm
  have hW : ∀ w ∈ ss.length :: ends (8 + 8 * ss.length) (ss.map (fun es => (section_ actual es).length)), w < 2 ^ 32 := by
    intro w hw
    rcases List.mem_cons.mp hw with hw | hw
    · omega
    · have := ends_le w hw; omega
  have hz := odd_zero hW (by simp) (by simp; omega) h.symm
  rcases sections_cases v ss' with hc | ⟨es, h1, e, h2, r, hc⟩
  · rw [hc] at hz
    exact absurd hz (by decide)
  · rw [hc] at hz
    simp only [Entry.text, List.append_assoc] at hz
    rw [take_app _ _ _ (by simp), int_nat] at hz
    have := leN_inj (by have := hf es h1 e h2; omega) (by omega) hz
    omega

theorem ends_last {base : Nat} {ns : List Nat} (h : ns ≠ []) :
    ends base ns = (ends base ns).take (ns.length - 1) ++ [base + ns.sum] := by
  obtain ⟨n, hn⟩ : ∃ n, ns.length = n + 1 := by
    cases ns with
    | nil => exact absurd rfl h
    | cons a ns => exact ⟨ns.length, rfl⟩
  unfold ends
  rw [hn, List.range_succ, List.map_append]
  rw [show n + 1 - 1 = n by omega, List.take_left' (by simp)]
  simp only [List.map_cons, List.map_nil]
  rw [List.take_of_length_le (by omega)]

theorem ints_snoc (a : List Nat) (n : Nat) : ints (a ++ [n]) = ints a ++ int 8 n := by
  simp only [ints, List.flatMap_append, List.flatMap_cons, List.flatMap_nil, List.append_nil]

theorem noends0_ne {v : Dialect} (hv : v.word = 8) (he : v.ends0 = false) {ss ss' : List (List Entry)} (h0 : ss ≠ [])
    (hs : (text actual ss).length < 2 ^ 31) (hl : ss'.length < 2 ^ 63)
    (hf : ∀ es ∈ ss', ∀ e ∈ es, 28 + (e.body v).length < 2 ^ 31) : text v ss' ≠ text actual ss := by
  intro h
  have hs1 := hs
  rw [text_len] at hs
  have hpos : 0 < ss.length := by
    cases ss with
    | nil => exact absurd rfl h0
    | cons a ss => simp
  obtain ⟨T, hT⟩ : ∃ T, (text actual ss).length = T := ⟨_, rfl⟩
  have ha : text actual ss = int 8 ss.length ++ (ints ((ends (8 + 8 * ss.length)
      (ss.map (fun es => (section_ actual es).length))).take (ss.length - 1)) ++
      (int 8 (T : Int) ++ ss.flatMap (section_ actual))) := by
    have h1 : text actual ss = int 8 ss.length ++ (ints (ends (8 + 8 * ss.length)
        (ss.map (fun es => (section_ actual es).length))) ++ ss.flatMap (section_ actual)) := by
      unfold text decomp
      simp only [show actual.ends0 = true from rfl, show actual.word = 8 from rfl, if_true, List.length_map, List.append_assoc]
    have h2 := ends_last (base := 8 + 8 * ss.length) (ns := ss.map (fun es => (section_ actual es).length)) (by simpa using h0)
    rw [List.length_map, ← text_len, hT] at h2
    have h3 := congrArg ints h2
    rw [ints_snoc] at h3
    rw [h1, h3, List.append_assoc]
  have hd : text v ss' = int 8 ss'.length ++ (ints ((ends (8 + 8 * (ss'.length - 1))
      (ss'.map (fun es => (section_ v es).length))).drop 1) ++ ss'.flatMap (section_ v)) := by
    unfold text decomp
    rw [hv, he]
    simp only [Bool.false_eq_true, if_false, List.length_map, List.append_assoc]
  have hlen := congrArg List.length h
  rw [hd, ha] at h
  have h1 := List.append_inj h (by simp)
  have hn : ss'.length = ss.length := int_nat_inj (w := 8) (by omega) (by omega) h1.1
  have h2 := (List.append_inj h1.2 (by simp; omega)).2
  have hlen2 := congrArg List.length hd
  simp only [List.length_append, int_length, ints_length, List.length_drop, secEnds_length, List.length_map] at hlen2
  rcases sections_cases v ss' with hc | ⟨es, g1, e, g2, r, hc⟩
  · rw [hc] at h2
    have := congrArg List.length h2
    simp only [List.length_nil, List.length_append, int_length] at this
    omega
  · have h3 := congrArg (List.take 4) h2
    rw [hc, int_nat, leN_add 4 4] at h3
    simp only [Entry.text, List.append_assoc] at h3
    rw [take_app _ _ _ (by simp), take_app _ _ _ (by simp), int_nat] at h3
    have h4 := leN_inj (by have := hf es g1 e g2; omega) (by omega) h3
    rw [hc, List.length_append, text_length] at hlen2
    omega

theorem entryPos_succ {v : Dialect} {es : List Entry} {i : Nat} (h : i < es.length) : pos v es i + 28 ≤ pos v es (i + 1) := by
  unfold pos section_
  rw [List.take_succ_eq_append_getElem h, List.flatMap_append, List.length_append]
  simp only [List.flatMap_cons, List.flatMap_nil, List.append_nil, text_length]
  omega

theorem entryPos_lt {v : Dialect} {es : List Entry} {i j : Nat} (h : i < j) (hj : j ≤ es.length) : pos v es i < pos v es j := by
  induction j with
  | zero => omega
  | succ j ih =>
    have h1 := entryPos_succ (v := v) (es := es) (i := j) (by omega)
    by_cases hc : i = j
    · subst hc; omega
    · have := ih (by omega) (by omega); omega

/-- An entry selects one list of blocks. -/
theorem selects_unique {v : Dialect} {es : List Entry} {i : Nat} {bs bs' : List Blk} (h : Selects v es i bs)
    (h' : Selects v es i bs') : bs = bs' := by
  induction h generalizing bs' with
  | own h1 h2 =>
    cases h' with
    | own g1 g2 =>
      rw [h1] at g1
      cases g1
      rw [h2] at g2
      cases g2
      rfl
    | ref g1 g2 _ _ _ =>
      rw [h1] at g1
      cases g1
      rw [g2] at h2
      cases h2
  | @ref i j e m c off bs h1 h2 h3 h4 h5 ih =>
    cases h' with
    | own g1 g2 =>
      rw [h1] at g1
      cases g1
      rw [h2] at g2
      cases g2
    | @ref _ j' e' m' c' off' bs2 g1 g2 g3 g4 g5 =>
      rw [h1] at g1
      cases g1
      rw [h2] at g2
      cases g2
      have hi : i < es.length := by
        by_contra hc
        rw [List.getElem?_eq_none (by omega)] at h1
        cases h1
      have hj : j = j' := by
        rcases Nat.lt_trichotomy j j' with hc | hc | hc
        · have := entryPos_lt (v := v) (es := es) hc (by omega); omega
        · exact hc
        · have := entryPos_lt (v := v) (es := es) hc (by omega); omega
      subst hj
      rw [ih g5]

end Verif
