import Verif.Spec.Damage
import Verif.Lemmas.Pairs
import Verif.Model.File
import Verif.Model.Dump

/-
C96: damaged metadata.
-/

namespace Verif.Props

open _root_.Verif.Spec (sizeField numberField kindField WholeEntries Foreign Named NamedGone refers packed blocksField needs refField Target)

/-! ### More bytes do not change what has been read -/

theorem rd_more {b x : List Byte} {off n : Nat} {v : List Byte} (h : rd b off n = .ok v) : rd (b ++ x) off n = .ok v := by
  unfold rd at h ⊢
  split at h
  · rename_i h1
    rw [if_pos (by simp; omega), ← h, List.drop_append_of_le_length (by omega), List.take_append_of_le_length (by simp; omega)]
  · simp at h

theorem rd_after (b x : List Byte) (k n : Nat) : rd (b ++ x) (b.length + k) n = rd x k n := by
  unfold rd
  rw [List.length_append, ← List.drop_drop, List.drop_left]
  by_cases h : k + n ≤ x.length
  · rw [if_pos h, if_pos (by omega)]
  · rw [if_neg h, if_neg (by omega)]

theorem rdHdr_more {b x : List Byte} {off : Nat} {v : Hdr} (h : rdHdr b off = .ok v) : rdHdr (b ++ x) off = .ok v := by
  unfold rdHdr at h ⊢
  obtain ⟨a, h1, h2⟩ := Res.bind_ok h
  rw [rd_more h1]
  exact h2

theorem rdWords_more {b x : List Byte} {off k : Nat} {v : List Nat} (h : rdWords b off k = .ok v) :
    rdWords (b ++ x) off k = .ok v := by
  unfold rdWords at h ⊢
  obtain ⟨a, h1, h2⟩ := Res.bind_ok h
  rw [rd_more h1]
  exact h2

theorem rdRef_more {b x : List Byte} {off : Nat} {h : Hdr} {v : Option Nat × Int} (hv : rdRef b off h = .ok v) :
    rdRef (b ++ x) off h = .ok v := by
  unfold rdRef rdU64 rdI64 at hv ⊢
  obtain ⟨a, h1, h2⟩ := Res.bind_ok hv
  obtain ⟨c, h3, h4⟩ := Res.bind_ok h2
  obtain ⟨e, h5, h6⟩ := Res.bind_ok h3
  have e1 : (if h.flags.recd = true then do
      let r ← (do let b ← rd (b ++ x) (off + hdrSize) 8; return unle b)
      return some r else return none : Res (Option Nat)) = .ok a := by
    split at h1
    · rename_i hr
      obtain ⟨u, u1, u2⟩ := Res.bind_ok h1
      obtain ⟨t, t1, t2⟩ := Res.bind_ok u1
      rw [if_pos hr, rd_more t1]
      simp only [Res.ok_bind, t2]
      exact u2
    · rename_i hr
      rw [if_neg hr]
      exact h1
  rw [e1, Res.ok_bind, rd_more h5, Res.ok_bind, h6, Res.ok_bind]
  exact h4

theorem metaDecode_more {d : DInfo} {b x : List Byte} {off : Nat} {v : MEnt} (hv : metaDecode d b off = .ok v) :
    metaDecode d (b ++ x) off = .ok v := by
  unfold metaDecode at hv ⊢
  obtain ⟨h, h1, hv⟩ := Res.bind_ok hv
  rw [rdHdr_more h1, Res.ok_bind]
  simp only at hv ⊢
  split at hv
  · simp at hv
  rename_i c1
  rw [if_neg c1]
  split at hv
  · simp at hv
  rename_i c2
  rw [if_neg c2]
  obtain ⟨rn, h2, hv⟩ := Res.bind_ok hv
  have e2 : (if h.flags.recd = true then do
      let b ← rd (b ++ x) (off + hdrSize) 8
      return some (unle b) else return none : Res (Option Nat)) = .ok rn := by
    split at h2
    · rename_i hr
      obtain ⟨t, t1, t2⟩ := Res.bind_ok h2
      rw [if_pos hr, rd_more t1]
      exact t2
    · rename_i hr
      rw [if_neg hr]
      exact h2
  rw [e2, Res.ok_bind]
  obtain ⟨ns, h3, hv⟩ := Res.bind_ok hv
  have e3 : (if h.flags.mul = true then do
      let b ← rd (b ++ x) (if h.flags.recd = true then off + hdrSize + 8 else off + hdrSize) 4
      return unsle b else return 1 : Res Int) = .ok ns := by
    split at h3
    · rename_i hr
      obtain ⟨t, t1, t2⟩ := Res.bind_ok h3
      rw [if_pos hr, rd_more t1]
      exact t2
    · rename_i hr
      rw [if_neg hr]
      exact h3
  rw [e3, Res.ok_bind]
  split at hv
  · simp at hv
  rename_i c3
  rw [if_neg c3]
  split at hv
  · simp at hv
  rename_i c4
  rw [if_neg c4]
  by_cases c5 : h.flags.enc = true ∧ (if h.flags.recd = true then d.ndim - 1 else d.ndim) = 0
  · rw [if_pos c5] at hv
    simp at hv
  rw [if_neg c5] at hv ⊢
  obtain ⟨ws, h4, hv⟩ := Res.bind_ok hv
  rw [rdWords_more h4, Res.ok_bind]
  exact hv

theorem stepL_more {dsets : DSets} {share : Bool} {b x : List Byte} {off : Nat} {h : Hdr} {c : List (Int × List MSel)}
    {v : List MEnt × List (Int × List MSel)} (hv : stepL dsets share b off h c = .ok v) :
    stepL dsets share (b ++ x) off h c = .ok v := by
  unfold stepL at hv ⊢
  obtain ⟨o, h1, hv⟩ := Res.bind_ok hv
  rw [h1, Res.ok_bind]
  cases o with
  | none => exact hv
  | some d =>
    simp only at hv ⊢
    split at hv
    · rename_i hr
      rw [if_pos hr]
      obtain ⟨e, h2, hv⟩ := Res.bind_ok hv
      have : refDecode d (b ++ x) off c = .ok e := by
        unfold refDecode at h2 ⊢
        obtain ⟨h', g1, g⟩ := Res.bind_ok h2
        rw [rdHdr_more g1, Res.ok_bind]
        split at g
        · simp at g
        rename_i c1
        rw [if_neg c1]
        obtain ⟨rr, g2, g⟩ := Res.bind_ok g
        rw [rdRef_more g2, Res.ok_bind]
        exact g
      rw [this]
      exact hv
    · rename_i hr
      rw [if_neg hr]
      obtain ⟨e, h2, hv⟩ := Res.bind_ok hv
      rw [metaDecode_more h2]
      exact hv

theorem stepC_more {dsets : DSets} {share : Bool} {b x : List Byte} {off : Nat} {h : Hdr} {c : List (Int × (Nat × List Nat))}
    {v : List CEnt × List (Int × (Nat × List Nat))} (hv : stepC dsets share b off h c = .ok v) :
    stepC dsets share (b ++ x) off h c = .ok v := by
  unfold stepC at hv ⊢
  obtain ⟨o, h1, hv⟩ := Res.bind_ok hv
  rw [h1, Res.ok_bind]
  cases o with
  | none => exact hv
  | some d =>
    simp only at hv ⊢
    split at hv
    · rename_i hr
      rw [if_pos hr]
      obtain ⟨e, h2, hv⟩ := Res.bind_ok hv
      rw [rdRef_more h2]
      exact hv
    · rename_i hr
      rw [if_neg hr]
      obtain ⟨e, h2, hv⟩ := Res.bind_ok hv
      rw [metaDecode_more h2]
      exact hv

/-! ### Whole entries first -/

theorem rdHdr_piece {pre p rest : List Byte} (h : 28 ≤ p.length) : ∃ hd, rdHdr (pre ++ p ++ rest) pre.length = .ok hd ∧
    hd.metaSize = sizeField p ∧ hd.did = numberField p ∧ hd.flags = Flags.ofNat (kindField p) := by
  unfold rdHdr
  have e : rd (pre ++ p ++ rest) pre.length hdrSize = .ok (p.take 28) := by
    have := rd_after pre (p ++ rest) 0 28
    rw [Nat.add_zero, ← List.append_assoc] at this
    show rd _ _ 28 = _
    rw [this]
    unfold rd
    rw [if_pos (by simp; omega), List.drop_zero, List.take_append_of_le_length h]
  rw [e]
  refine ⟨_, rfl, ?_, ?_, ?_⟩
  · simp only [sizeField, List.take_take]; rfl
  · simp only [numberField, List.drop_take, List.take_take]; rfl
  · simp only [kindField, List.drop_take, List.take_take]; rfl

theorem stepL_keys {dsets : DSets} {share : Bool} {buf : List Byte} {off : Nat} {h : Hdr} {c : List (Int × List MSel)}
    {v : List MEnt × List (Int × List MSel)} (hv : stepL dsets share buf off h c = .ok v) :
    ∀ p ∈ v.2, p ∈ c ∨ p.1 = (off : Int) := by
  unfold stepL at hv
  obtain ⟨o, _, hv⟩ := Res.bind_ok hv
  cases o with
  | none => simp only [Res.pure_eq, Res.ok.injEq] at hv; subst hv; exact fun p hp => .inl hp
  | some d =>
    simp only at hv
    split at hv
    · obtain ⟨e, _, hv⟩ := Res.bind_ok hv
      simp only [Res.pure_eq, Res.ok.injEq] at hv; subst hv; exact fun p hp => .inl hp
    · obtain ⟨e, _, hv⟩ := Res.bind_ok hv
      simp only [Res.pure_eq, Res.ok.injEq] at hv
      subst hv
      intro p hp
      rcases List.mem_cons.mp hp with rfl | hp
      · exact .inr rfl
      · exact .inl hp

theorem stepC_keys {dsets : DSets} {share : Bool} {buf : List Byte} {off : Nat} {h : Hdr} {c : List (Int × (Nat × List Nat))}
    {v : List CEnt × List (Int × (Nat × List Nat))} (hv : stepC dsets share buf off h c = .ok v) :
    ∀ p ∈ v.2, p ∈ c ∨ p.1 = (off : Int) := by
  unfold stepC at hv
  obtain ⟨o, _, hv⟩ := Res.bind_ok hv
  cases o with
  | none => simp only [Res.pure_eq, Res.ok.injEq] at hv; subst hv; exact fun p hp => .inl hp
  | some d =>
    simp only at hv
    split at hv
    · obtain ⟨e, _, hv⟩ := Res.bind_ok hv
      simp only [Res.pure_eq, Res.ok.injEq] at hv; subst hv; exact fun p hp => .inl hp
    · obtain ⟨e, _, hv⟩ := Res.bind_ok hv
      obtain ⟨e', _, hv⟩ := Res.bind_ok hv
      cases hb : e'.blocks with
      | none => rw [hb] at hv; simp only [Res.pure_eq, Res.ok.injEq] at hv; subst hv; exact fun p hp => .inl hp
      | some b =>
        rw [hb] at hv
        simp only [Res.pure_eq, Res.ok.injEq] at hv
        subst hv
        intro p hp
        rcases List.mem_cons.mp hp with rfl | hp
        · exact .inr rfl
        · exact .inl hp

/-- If whole entries are accepted, then so they are with something behind them. -/
theorem parseLoop_pieces {ε κ : Type} {step step' : Nat → Hdr → List (Int × κ) → Res (List ε × List (Int × κ))}
    (hmono : ∀ off h c v, step off h c = .ok v → step' off h c = .ok v)
    (hkey : ∀ off h c v, step off h c = .ok v → ∀ p ∈ v.2, p ∈ c ∨ p.1 = (off : Int)) (x : List Byte) :
    ∀ (ps : List (List Byte)) (pre : List Byte) (cache : List (Int × κ)) (fuel fuel' : Nat) (es : List ε), WholeEntries ps →
      parseLoop step (pre ++ ps.flatten) fuel pre.length cache = .ok es → ps.length ≤ fuel' →
      ∃ cache', (∀ p ∈ cache', p ∈ cache ∨ ∃ i < ps.length, p.1 = ((pre ++ (ps.take i).flatten).length : Int)) ∧
        parseLoop step' (pre ++ ps.flatten ++ x) fuel' pre.length cache =
        (do let es' ← parseLoop step' (pre ++ ps.flatten ++ x) (fuel' - ps.length) (pre ++ ps.flatten).length cache'
            return es ++ es') := by
  intro ps
  induction ps with
  | nil =>
    intro pre cache fuel fuel' es _ h _
    have he : es = [] := by
      simp only [List.flatten_nil, List.append_nil] at h
      cases fuel <;> simpa [parseLoop] using h.symm
    subst he
    refine ⟨cache, fun p hp => .inl hp, ?_⟩
    simp only [List.flatten_nil, List.append_nil, List.length_nil, Nat.sub_zero, List.nil_append]
    cases parseLoop step' (pre ++ x) fuel' pre.length cache <;> rfl
  | cons p ps ih =>
    intro pre cache fuel fuel' es ht h hf
    obtain ⟨p1, p2⟩ := ht p (by simp)
    have hlt : pre.length < (pre ++ (p :: ps).flatten).length := by simp; omega
    obtain ⟨f', rfl⟩ : ∃ f, fuel' = f + 1 := ⟨fuel' - 1, by simp at hf; omega⟩
    cases fuel with
    | zero =>
      rw [parseLoop, if_pos hlt] at h
      simp at h
    | succ f =>
      rw [parseLoop, if_pos hlt] at h
      obtain ⟨hd, h1, h⟩ := Res.bind_ok h
      obtain ⟨r, h2, h⟩ := Res.bind_ok h
      obtain ⟨o, h3, h⟩ := Res.bind_ok h
      obtain ⟨es1, h4, h⟩ := Res.bind_ok h
      simp only [Res.pure_eq, Res.ok.injEq] at h
      obtain ⟨hd', g1, g2, _, _⟩ := rdHdr_piece (pre := pre) (rest := ps.flatten) p1
      have hbuf : pre ++ (p :: ps).flatten = pre ++ p ++ ps.flatten := by simp
      rw [hbuf] at h1 h4
      rw [h1, Res.ok.injEq] at g1
      subst g1
      have ho : o = (pre ++ p).length := by
        unfold advance at h3
        rw [g2, p2, if_neg (by omega)] at h3
        simp only [Res.ok.injEq] at h3
        simp [← h3]
      rw [ho] at h4
      obtain ⟨c', hk', hc'⟩ := ih (pre ++ p) r.2 f f' es1 (fun q hq => ht q (by simp [hq])) h4 (by simp at hf; omega)
      refine ⟨c', fun q hq => ?_, ?_⟩
      · rcases hk' q hq with h' | ⟨i, hi, e⟩
        · rcases hkey _ _ _ _ h2 q h' with h' | h'
          · exact .inl h'
          · exact .inr ⟨0, by simp, by simpa using h'⟩
        · refine .inr ⟨i + 1, by simpa using hi, ?_⟩
          rw [e, List.take_succ_cons, List.flatten_cons, ← List.append_assoc]
      rw [hbuf, parseLoop, if_pos (by simp; omega), rdHdr_more h1]
      simp only [Res.ok_bind]
      rw [hmono _ _ _ _ h2, Res.ok_bind, h3, Res.ok_bind, ho, hc']
      simp only [List.length_cons, Nat.add_sub_add_right]
      cases parseLoop step' (pre ++ p ++ ps.flatten ++ x) (f' - ps.length) (pre ++ p ++ ps.flatten).length c' <;> simp [← h]

/-- Everything that is remembered is where an entry begins. -/
def KeysAt {κ : Type} (ps : List (List Byte)) (c : List (Int × κ)) : Prop :=
  ∀ p ∈ c, ∃ i < ps.length, p.1 = ((ps.take i).flatten.length : Int)

/-- What follows whole entries decides. -/
theorem parseLoop_tail {ε κ : Type} {step step' : Nat → Hdr → List (Int × κ) → Res (List ε × List (Int × κ))}
    (hmono : ∀ off h c v, step off h c = .ok v → step' off h c = .ok v)
    (hkey : ∀ off h c v, step off h c = .ok v → ∀ p ∈ v.2, p ∈ c ∨ p.1 = (off : Int)) {x : List Byte} {ps : List (List Byte)} {es : List ε}
    (ht : WholeEntries ps) (hx : x ≠ []) (h : parseLoop step ps.flatten ps.flatten.length 0 [] = .ok es) :
    ∃ f cache, KeysAt ps cache ∧ parseLoop step' (ps.flatten ++ x) (ps.flatten ++ x).length 0 [] =
      (do let h ← rdHdr (ps.flatten ++ x) ps.flatten.length
          let r ← step' ps.flatten.length h cache
          let off' ← advance ps.flatten.length h
          let es' ← parseLoop step' (ps.flatten ++ x) f off' r.2
          return es ++ (r.1 ++ es')) := by
  have hl : ps.length ≤ ps.flatten.length := by
    clear h
    induction ps with
    | nil => simp
    | cons p ps ih =>
      have := (ht p (by simp)).1
      have := ih (fun q hq => ht q (by simp [hq]))
      rw [List.flatten_cons, List.length_append, List.length_cons]
      omega
  have hxl : 0 < x.length := List.length_pos_of_ne_nil hx
  obtain ⟨c, hk, hc⟩ := parseLoop_pieces hmono hkey x ps [] [] _ (ps.flatten ++ x).length es ht (by simpa using h)
    (by rw [List.length_append]; omega)
  obtain ⟨f, hf⟩ : ∃ f, (ps.flatten ++ x).length - ps.length = f + 1 := ⟨(ps.flatten ++ x).length - ps.length - 1, by
    rw [List.length_append]; omega⟩
  refine ⟨f, c, fun p hp => (hk p hp).elim (fun h => by simp at h) (fun h => by simpa using h), ?_⟩
  simp only [List.nil_append, List.length_nil] at hc
  rw [hc, hf, parseLoop, if_pos (by rw [List.length_append]; omega)]
  cases rdHdr (ps.flatten ++ x) ps.flatten.length with
  | ub => rfl
  | err => rfl
  | ok hd =>
    simp only [Res.ok_bind]
    cases step' ps.flatten.length hd c with
    | ub => rfl
    | err => rfl
    | ok r =>
      simp only [Res.ok_bind]
      cases advance ps.flatten.length hd with
      | ub => rfl
      | err => rfl
      | ok o =>
        simp only [Res.ok_bind]
        cases parseLoop step' (ps.flatten ++ x) f o r.2 <;> rfl

theorem tail_ub {ε κ : Type} {step step' : Nat → Hdr → List (Int × κ) → Res (List ε × List (Int × κ))}
    (hmono : ∀ off h c v, step off h c = .ok v → step' off h c = .ok v)
    (hkey : ∀ off h c v, step off h c = .ok v → ∀ p ∈ v.2, p ∈ c ∨ p.1 = (off : Int)) {x : List Byte} {ps : List (List Byte)} {es : List ε}
    (ht : WholeEntries ps) (hx : x ≠ []) (h : parseLoop step ps.flatten ps.flatten.length 0 [] = .ok es)
    (hb : rdHdr (ps.flatten ++ x) ps.flatten.length = .ub ∨ ∃ hd, rdHdr (ps.flatten ++ x) ps.flatten.length = .ok hd ∧
      ((∀ c, KeysAt ps c → step' ps.flatten.length hd c = .ub) ∨
        (∀ c, ∃ v, step' ps.flatten.length hd c = .ok v) ∧ advance ps.flatten.length hd = .ub)) :
    parseLoop step' (ps.flatten ++ x) (ps.flatten ++ x).length 0 [] = .ub := by
  obtain ⟨f, c, hk, e⟩ := parseLoop_tail hmono hkey ht hx h
  rw [e]
  rcases hb with hb | ⟨hd, h1, h2 | ⟨h2, h3⟩⟩
  · rw [hb]; rfl
  · rw [h1, Res.ok_bind, h2 c hk]; rfl
  · obtain ⟨v, hv⟩ := h2 c
    rw [h1, Res.ok_bind, hv, Res.ok_bind, h3]; rfl

theorem tail_err {ε κ : Type} {step step' : Nat → Hdr → List (Int × κ) → Res (List ε × List (Int × κ))}
    (hmono : ∀ off h c v, step off h c = .ok v → step' off h c = .ok v)
    (hkey : ∀ off h c v, step off h c = .ok v → ∀ p ∈ v.2, p ∈ c ∨ p.1 = (off : Int)) {x : List Byte} {ps : List (List Byte)} {es : List ε}
    (ht : WholeEntries ps) (hx : x ≠ []) (h : parseLoop step ps.flatten ps.flatten.length 0 [] = .ok es) {hd : Hdr}
    (h1 : rdHdr (ps.flatten ++ x) ps.flatten.length = .ok hd) (h2 : ∀ c, step' ps.flatten.length hd c = .err) :
    parseLoop step' (ps.flatten ++ x) (ps.flatten ++ x).length 0 [] = .err := by
  obtain ⟨f, c, hk, e⟩ := parseLoop_tail hmono hkey ht hx h
  rw [e, h1, Res.ok_bind, h2]
  rfl

section
variable {dsets : DSets} {share : Bool} {ix ix' : Idx} {ps : List (List Byte)} {x : List Byte}

theorem idx_ub (ht : WholeEntries ps) (hx : x ≠ []) (h : ix.parse dsets share ps.flatten = .ok ix')
    (hb : rdHdr (ps.flatten ++ x) ps.flatten.length = .ub ∨ ∃ hd, rdHdr (ps.flatten ++ x) ps.flatten.length = .ok hd ∧
      (((∀ c, stepL dsets share (ps.flatten ++ x) ps.flatten.length hd c = .ub) ∧
        ∀ c, stepC dsets share (ps.flatten ++ x) ps.flatten.length hd c = .ub) ∨
        ((∀ c, ∃ v, stepL dsets share (ps.flatten ++ x) ps.flatten.length hd c = .ok v) ∧
          ∀ c, ∃ v, stepC dsets share (ps.flatten ++ x) ps.flatten.length hd c = .ok v) ∧
          advance ps.flatten.length hd = .ub)) :
    ix.parse dsets share (ps.flatten ++ x) = .ub := by
  cases ix with
  | list es =>
    obtain ⟨y, h1, _⟩ := Res.bind_ok h
    have : parseL dsets share (ps.flatten ++ x) = .ub := by
      refine tail_ub (step := stepL dsets share ps.flatten) (fun _ _ _ _ hv => stepL_more hv) (fun _ _ _ _ hv => stepL_keys hv) ht hx h1 ?_
      rcases hb with hb | ⟨hd, g1, ⟨g2, _⟩ | ⟨⟨g2, _⟩, g3⟩⟩
      · exact .inl hb
      · exact .inr ⟨hd, g1, .inl fun c _ => g2 c⟩
      · exact .inr ⟨hd, g1, .inr ⟨g2, g3⟩⟩
    simp only [Idx.parse, this]
    rfl
  | comp es =>
    obtain ⟨y, h1, _⟩ := Res.bind_ok h
    have : parseC dsets share (ps.flatten ++ x) = .ub := by
      refine tail_ub (step := stepC dsets share ps.flatten) (fun _ _ _ _ hv => stepC_more hv) (fun _ _ _ _ hv => stepC_keys hv) ht hx h1 ?_
      rcases hb with hb | ⟨hd, g1, ⟨_, g2⟩ | ⟨⟨_, g2⟩, g3⟩⟩
      · exact .inl hb
      · exact .inr ⟨hd, g1, .inl fun c _ => g2 c⟩
      · exact .inr ⟨hd, g1, .inr ⟨g2, g3⟩⟩
    simp only [Idx.parse, this]
    rfl

theorem hdr_after (hl : 28 ≤ x.length) : ∃ hd, rdHdr (ps.flatten ++ x) ps.flatten.length = .ok hd ∧
    hd.metaSize = sizeField x ∧ hd.did = numberField x ∧ hd.flags = Flags.ofNat (kindField x) := by
  have := rdHdr_piece (pre := ps.flatten) (rest := []) hl
  rwa [List.append_nil] at this

theorem dsetOf_named {d : DInfo} {i : Int} {n : Nat} (h1 : i = n) (h2 : dsets[n]? = some (some d)) :
    dsetOf dsets i = .ok (some d) := by
  subst h1
  unfold dsetOf
  rw [if_neg (by omega), Int.toNat_natCast, h2]

theorem dsetOf_gone {i : Int} {n : Nat} (h1 : i = n) (h2 : dsets[n]? = some none) : dsetOf dsets i = .ok none := by
  subst h1
  unfold dsetOf
  rw [if_neg (by omega), Int.toNat_natCast, h2]

theorem dsetOf_foreign {i : Int} (h : i < 0 ∨ (dsets.length : Int) ≤ i) : dsetOf dsets i = .ub := by
  unfold dsetOf
  rcases h with h | h
  · rw [if_pos h]
  · rw [if_neg (by omega), List.getElem?_eq_none (by omega)]

theorem short_ub (ht : WholeEntries ps) (h : ix.parse dsets share ps.flatten = .ok ix') (hx : x ≠ []) (hl : x.length < 28) :
    ix.parse dsets share (ps.flatten ++ x) = .ub := by
  refine idx_ub ht hx h (.inl ?_)
  have e : rd (ps.flatten ++ x) ps.flatten.length 28 = .ub := by
    have := rd_after ps.flatten x 0 28
    rw [Nat.add_zero] at this
    rw [this]
    unfold rd
    rw [if_neg (by omega)]
  unfold rdHdr
  show (rd _ _ 28 >>= _) = _
  rw [e]
  rfl

/-! ### C96 -/

/-- **C96, violated.** The rest of a header behind whole entries is read beyond the end of the metadata. (Of the header of an
entry of a removed dataset the code reads only the first eight bytes, which the model does not follow, so that case is left out.) -/
theorem C96_short_violated (ht : WholeEntries ps) (h : ix.parse dsets share ps.flatten = .ok ix') (hx : x ≠ []) (hl : x.length < 28)
    (_hg : x.length < 8 ∨ ¬ NamedGone dsets x) : ix.parse dsets share (ps.flatten ++ x) = .ub :=
  short_ub ht h hx hl

/-- **C96, violated.** A dataset number that is not one of the file is used to access the table of datasets. -/
theorem C96_number_violated (ht : WholeEntries ps) (h : ix.parse dsets share ps.flatten = .ok ix') (hl : 28 ≤ x.length)
    (hn : Foreign dsets x) : ix.parse dsets share (ps.flatten ++ x) = .ub := by
  have hx : x ≠ [] := by rintro rfl; simp at hl
  obtain ⟨hd, h1, _, h3, _⟩ := hdr_after (ps := ps) hl
  have := dsetOf_foreign (dsets := dsets) (i := hd.did) (by rw [h3]; exact hn)
  refine idx_ub ht hx h (.inr ⟨hd, h1, .inl ⟨fun c => ?_, fun c => ?_⟩⟩)
  · unfold stepL; rw [this]; rfl
  · unfold stepC; rw [this]; rfl

/-- **C96, violated.** An entry of a removed dataset whose size is zero or negative: the loop over the entries does not get to
the end of the metadata, or leaves it. -/
theorem C96_endless_violated (ht : WholeEntries ps) (h : ix.parse dsets share ps.flatten = .ok ix') (hl : 28 ≤ x.length)
    (hn : NamedGone dsets x) (hs : sizeField x ≤ 0) : ix.parse dsets share (ps.flatten ++ x) = .ub := by
  have hx : x ≠ [] := by rintro rfl; simp at hl
  obtain ⟨hd, h1, h2, h3, _⟩ := hdr_after (ps := ps) hl
  obtain ⟨n, n1, n2⟩ := hn
  have := dsetOf_gone (dsets := dsets) (i := hd.did) (n := n) (by rw [h3, n1]) n2
  refine idx_ub ht hx h (.inr ⟨hd, h1, .inr ⟨⟨fun c => ?_, fun c => ?_⟩, ?_⟩⟩)
  · unfold stepL; rw [this]; exact ⟨_, rfl⟩
  · unfold stepC; rw [this]; exact ⟨_, rfl⟩
  · unfold advance; rw [if_pos (by omega)]

theorem decode_size {d : DInfo} {buf : List Byte} {off : Nat} {hd : Hdr} (h : rdHdr buf off = .ok hd) (hs : hd.metaSize ≤ 0) :
    metaDecode d buf off = .err := by
  unfold metaDecode
  rw [h, Res.ok_bind, if_pos hs]

/-- **C96, partial: sizes that are zero or negative, in entries of datasets that are there.** The metadata is refused, unless
the entry refers to another one and the index is the compact one. -/
theorem C96_size_partial (ht : WholeEntries ps) (h : ix.parse dsets share ps.flatten = .ok ix') (hl : 28 ≤ x.length) {d : DInfo}
    (hn : Named dsets x d) (hs : sizeField x ≤ 0) (hr : (∃ es, ix = .list es) ∨ share = false ∨ refers x = false) :
    ix.parse dsets share (ps.flatten ++ x) = .err := by
  have hx : x ≠ [] := by rintro rfl; simp at hl
  obtain ⟨hd, h1, h2, h3, h4⟩ := hdr_after (ps := ps) hl
  obtain ⟨n, n1, n2⟩ := hn
  have hn := dsetOf_named (dsets := dsets) (i := hd.did) (n := n) (by rw [h3, n1]) n2
  rw [← h2] at hs
  cases ix with
  | list es =>
    obtain ⟨y, g1, _⟩ := Res.bind_ok h
    have : parseL dsets share (ps.flatten ++ x) = .err := by
      refine tail_err (step := stepL dsets share ps.flatten) (fun _ _ _ _ hv => stepL_more hv) (fun _ _ _ _ hv => stepL_keys hv) ht hx g1 h1 (fun c => ?_)
      unfold stepL
      rw [hn, Res.ok_bind]
      simp only
      split
      · unfold refDecode
        rw [h1, Res.ok_bind, if_pos hs]
        rfl
      · rw [decode_size h1 hs]
        rfl
    simp only [Idx.parse, this]
    rfl
  | comp es =>
    obtain ⟨y, g1, _⟩ := Res.bind_ok h
    have hr' : (share && hd.flags.ref) = false := by
      rcases hr with ⟨_, hr⟩ | hr | hr
      · cases hr
      · rw [hr]; rfl
      · have : hd.flags.ref = refers x := by rw [h4]; rfl
        rw [this, hr]; simp
    have : parseC dsets share (ps.flatten ++ x) = .err := by
      refine tail_err (step := stepC dsets share ps.flatten) (fun _ _ _ _ hv => stepC_more hv) (fun _ _ _ _ hv => stepC_keys hv) ht hx g1 h1 (fun c => ?_)
      unfold stepC
      rw [hn, Res.ok_bind]
      simp only [hr']
      rw [if_neg (by simp), decode_size h1 hs]
      rfl
    simp only [Idx.parse, this]
    rfl

theorem rdWords_after (pre : List Byte) (p k : Nat) : rdWords (pre ++ x) (pre.length + p) k = rdWords x p k := by
  unfold rdWords
  rw [rd_after]

theorem rest_ub {d : DInfo} {hd : Hdr} {enc : Bool} {encdim : Nat} {nsel : Int} {rn : Option Nat} {p : Nat}
    (hb : nsel ≤ 0 ∨ x.length < p + 8 * (if enc then (encdim - 1) + 2 * nsel.toNat else 2 * encdim * nsel.toNat)) :
    (if nsel < 0 then .ub else if enc = true ∧ encdim = 0 then .ub else do
      let ws ← rdWords x p (if enc = true then (encdim - 1) + 2 * nsel.toNat else 2 * encdim * nsel.toNat)
      let sels ← selsOfWords d enc encdim nsel.toNat rn ws
      let ds ← decDsize d encdim sels
      return ({ hdr := hd, sels := sels, dsize := ds } : MEnt) : Res MEnt) = .ub := by
  by_cases h1 : nsel < 0
  · rw [if_pos h1]
  rw [if_neg h1]
  by_cases h2 : enc = true ∧ encdim = 0
  · rw [if_pos h2]
  rw [if_neg h2]
  unfold rdWords rd
  by_cases h3 : p + 8 * (if enc = true then (encdim - 1) + 2 * nsel.toNat else 2 * encdim * nsel.toNat) ≤ x.length
  · have hz : nsel.toNat = 0 := by
      rcases hb with hb | hb
      · omega
      · omega
    rw [if_pos h3, Res.ok_bind, hz]
    have : ∀ ws, selsOfWords d enc encdim 0 rn ws = .ok [] := by
      intro ws
      unfold selsOfWords rawCoords
      cases enc <;> simp [chunks, mapRes, addDoffs]
    simp only [Res.pure_eq, Res.ok_bind, this]
    rfl
  · rw [if_neg h3]
    rfl

theorem decode_needs {d : DInfo} {pre : List Byte} {hd : Hdr} (h1 : rdHdr (pre ++ x) pre.length = .ok hd)
    (h2 : hd.metaSize = sizeField x) (h4 : hd.flags = Flags.ofNat (kindField x)) (hs : 0 < sizeField x) (hp : packed x = false)
    (hb : blocksField x ≤ 0 ∨ x.length < needs d.ndim x) : metaDecode d (pre ++ x) pre.length = .ub := by
  have f1 : hd.flags.recd = (kindField x).testBit 5 := by rw [h4]; rfl
  have f2 : hd.flags.mul = (kindField x).testBit 0 := by rw [h4]; rfl
  have f3 : hd.flags.enc = (kindField x).testBit 2 := by rw [h4]; rfl
  have f4 : hd.flags.defl = false := by rw [h4]; exact hp
  unfold metaDecode
  rw [h1, Res.ok_bind, if_neg (by omega)]
  simp only [f1, f2, f3, f4, hdrSize, Nat.add_assoc]
  by_cases c1 : (kindField x).testBit 5 = true ∧ d.ndim = 0
  · rw [if_pos c1]
  rw [if_neg c1]
  unfold needs at hb
  unfold blocksField at hb
  cases e5 : (kindField x).testBit 5 <;> cases e0 : (kindField x).testBit 0 <;>
    simp only [e5, e0, Bool.false_eq_true, if_true, if_false, Res.pure_eq, Res.ok_bind, and_false, rdWords_after,
      rd_after, Nat.reduceAdd] at hb ⊢
  · exact rest_ub hb
  · unfold rd
    by_cases c2 : 28 + 4 ≤ x.length
    · rw [if_pos c2, Res.ok_bind, Res.ok_bind, Nat.add_assoc pre.length 28 4, rdWords_after]
      exact rest_ub hb
    · rw [if_neg c2]; rfl
  · unfold rd
    by_cases c2 : 28 + 8 ≤ x.length
    · rw [if_pos c2, Res.ok_bind, Res.ok_bind]
      exact rest_ub hb
    · rw [if_neg c2]; rfl
  · unfold rd
    by_cases c2 : 28 + 8 ≤ x.length
    · rw [if_pos c2, Res.ok_bind, Res.ok_bind]
      by_cases c3 : 36 + 4 ≤ x.length
      · rw [if_pos c3, Res.ok_bind, Res.ok_bind, Nat.add_assoc pre.length 36 4, rdWords_after]
        exact rest_ub hb
      · rw [if_neg c3]; rfl
    · rw [if_neg c2]; rfl

/-- **C96, violated.** An entry that says it has more blocks than there are bytes, or none, is read beyond the end of the
metadata (no blocks: before the beginning of an empty array). -/
theorem C96_blocks_violated (ht : WholeEntries ps) (h : ix.parse dsets share ps.flatten = .ok ix') (hl : 28 ≤ x.length) {d : DInfo}
    (hn : Named dsets x d) (hs : 0 < sizeField x) (hr : share = false ∨ refers x = false) (hp : packed x = false)
    (hb : blocksField x ≤ 0 ∨ x.length < needs d.ndim x) : ix.parse dsets share (ps.flatten ++ x) = .ub := by
  have hx : x ≠ [] := by rintro rfl; simp at hl
  obtain ⟨hd, h1, h2, h3, h4⟩ := hdr_after (ps := ps) hl
  obtain ⟨n, n1, n2⟩ := hn
  have hn := dsetOf_named (dsets := dsets) (i := hd.did) (n := n) (by rw [h3, n1]) n2
  have hr' : (share && hd.flags.ref) = false := by
    rcases hr with hr | hr
    · rw [hr]; rfl
    · have : hd.flags.ref = refers x := by rw [h4]; rfl
      rw [this, hr]; simp
  have hd := decode_needs (d := d) h1 h2 h4 hs hp hb
  refine idx_ub ht hx h (.inr ⟨_, h1, .inl ⟨fun c => ?_, fun c => ?_⟩⟩)
  · unfold stepL
    rw [hn, Res.ok_bind]
    simp only [hr']
    rw [if_neg (by simp), hd]
    rfl
  · unfold stepC
    rw [hn, Res.ok_bind]
    simp only [hr']
    rw [if_neg (by simp), hd]
    rfl

/-- **C96.** Zeros behind whole entries, as where a part of the metadata was never written: refused if dataset 0 is there and
there are at least 28 of them; otherwise undefined. -/
theorem C96_zeros (ht : WholeEntries ps) (h : ix.parse dsets share ps.flatten = .ok ix') {n : Nat} (hn : 0 < n) :
    ((28 ≤ n ∧ ∃ d, dsets[0]? = some (some d)) →
      ix.parse dsets share (ps.flatten ++ List.replicate n 0) = .err) ∧
    (¬ (28 ≤ n ∧ ∃ d, dsets[0]? = some (some d)) →
      ix.parse dsets share (ps.flatten ++ List.replicate n 0) = .ub) := by
  have hz : ∀ k m, ((List.replicate n (0 : Byte)).drop k).take m = List.replicate (min m (n - k)) 0 := by
    intro k m
    rw [List.drop_replicate, List.take_replicate]
  have z0 : ∀ k, unle (List.replicate k (0 : Byte)) = 0 := by
    intro k
    induction k with
    | zero => rfl
    | succ k ih => rw [List.replicate_succ, unle, ih]; rfl
  have zs : ∀ k, unsle (List.replicate k (0 : Byte)) = 0 := by
    intro k
    unfold unsle signed
    rw [z0, if_pos (by simp; exact Nat.pow_pos (by decide))]
    rfl
  have s0 : sizeField (List.replicate n 0) = 0 := by
    unfold sizeField
    rw [List.take_replicate, zs]
  have n0 : numberField (List.replicate n 0) = 0 := by
    unfold numberField
    rw [hz, zs]
  have k0 : refers (List.replicate n 0) = false := by
    unfold refers kindField
    rw [hz, z0]
    rfl
  refine ⟨fun ⟨h1, d, h2⟩ => ?_, fun hc => ?_⟩
  · exact C96_size_partial ht h (by simpa using h1) ⟨0, n0, h2⟩ (by omega) (.inr (.inr k0))
  · by_cases h1 : 28 ≤ n
    · cases h2 : dsets[0]? with
      | none =>
        refine C96_number_violated ht h (by simpa using h1) (.inr ?_)
        rw [n0]
        have := List.getElem?_eq_none_iff.mp h2
        omega
      | some o =>
        cases o with
        | none => exact C96_endless_violated ht h (by simpa using h1) ⟨0, n0, h2⟩ (by omega)
        | some d => exact absurd ⟨h1, d, h2⟩ hc
    · exact short_ub ht h (by intro hh; have := congrArg List.length hh; simp at this; omega) (by simpa using h1)

theorem cacheGet_off {κ : Type} {c : List (Int × κ)} (hk : KeysAt ps c) (hw : ¬ Target ps x) :
    cacheGet c (ps.flatten.length + refField x) = none := by
  unfold cacheGet
  rw [Option.map_eq_none_iff, List.find?_eq_none]
  intro p hp hh
  obtain ⟨i, hi, e⟩ := hk p hp
  exact hw ⟨i, hi, by rw [← e]; simpa using hh⟩

theorem rdRef_after {hd : Hdr} (h4 : hd.flags = Flags.ofNat (kindField x)) (pre : List Byte) :
    (rdRef (pre ++ x) pre.length hd = .ub ∧ x.length < (if (kindField x).testBit 5 then 44 else 36)) ∨
      ∃ rn, rdRef (pre ++ x) pre.length hd = .ok (rn, refField x) := by
  have hrec : hd.flags.recd = (kindField x).testBit 5 := by rw [h4]; rfl
  unfold rdRef rdU64 rdI64 refField
  rw [hrec]
  cases hb : (kindField x).testBit 5 with
  | false =>
    simp only [Bool.false_eq_true, if_false, Res.pure_eq, Res.ok_bind]
    rw [Nat.add_zero, rd_after]
    unfold rd
    by_cases hl : hdrSize + 8 ≤ x.length
    · rw [if_pos hl]; exact .inr ⟨_, rfl⟩
    · rw [if_neg hl]; exact .inl ⟨rfl, by simp only [hdrSize] at hl; omega⟩
  | true =>
    simp only [if_true, Res.pure_eq]
    rw [Nat.add_assoc, rd_after, rd_after]
    unfold rd
    by_cases hl : hdrSize + 8 + 8 ≤ x.length
    · rw [if_pos hl, if_pos (by omega)]; exact .inr ⟨_, rfl⟩
    · rw [if_neg hl]
      refine .inl ⟨?_, by simp only [hdrSize] at hl; omega⟩
      by_cases h2 : hdrSize + 8 ≤ x.length
      · rw [if_pos h2]; rfl
      · rw [if_neg h2]; rfl

/-- **C96, violated.** An entry that refers to a place where no entry is: with the list index the last block of none is
accessed. -/
theorem C96_ref_violated {es : List MEnt} (ht : WholeEntries ps) (h : (Idx.list es).parse dsets true ps.flatten = .ok ix')
    (hl : 28 ≤ x.length) {d : DInfo} (hn : Named dsets x d) (hs : 0 < sizeField x) (hr : refers x = true) (hw : ¬ Target ps x) :
    (Idx.list es).parse dsets true (ps.flatten ++ x) = .ub := by
  have hx : x ≠ [] := by rintro rfl; simp at hl
  obtain ⟨hd, h1, h2, h3, h4⟩ := hdr_after (ps := ps) hl
  obtain ⟨n, n1, n2⟩ := hn
  have hn := dsetOf_named (dsets := dsets) (i := hd.did) (n := n) (by rw [h3, n1]) n2
  rw [← h2] at hs
  have hr' : (true && hd.flags.ref) = true := by
    have : hd.flags.ref = refers x := by rw [h4]; rfl
    rw [this, hr]; rfl
  obtain ⟨y, g1, _⟩ := Res.bind_ok h
  have : parseL dsets true (ps.flatten ++ x) = .ub := by
    refine tail_ub (step := stepL dsets true ps.flatten) (fun _ _ _ _ hv => stepL_more hv) (fun _ _ _ _ hv => stepL_keys hv)
      ht hx g1 (.inr ⟨hd, h1, .inl fun c hk => ?_⟩)
    unfold stepL
    rw [hn, Res.ok_bind]
    simp only [hr', if_true]
    unfold refDecode
    rw [h1, Res.ok_bind, if_neg (by omega)]
    rcases rdRef_after h4 ps.flatten with ⟨e, _⟩ | ⟨rn, e⟩
    · rw [e]; rfl
    · rw [e, Res.ok_bind]
      simp only [cacheGet_off hk hw, Option.getD_none, List.map_nil]
      rfl
  simp only [Idx.parse, this]
  rfl

theorem flatMapRes_append {α β : Type} {f : α → Res (List β)} {a b : List α} {v : List β} (h : flatMapRes f a = .ok v) :
    flatMapRes f (a ++ b) = (do let w ← flatMapRes f b; return v ++ w) := by
  induction a generalizing v with
  | nil =>
    simp only [flatMapRes, Res.ok.injEq] at h
    subst h
    rw [List.nil_append]
    cases flatMapRes f b <;> rfl
  | cons x a ih =>
    rw [flatMapRes] at h
    obtain ⟨y, h1, h⟩ := Res.bind_ok h
    obtain ⟨ys, h2, h⟩ := Res.bind_ok h
    simp only [Res.pure_eq, Res.ok.injEq] at h
    subst h
    rw [List.cons_append, flatMapRes, h1, Res.ok_bind, ih h2]
    cases flatMapRes f b <;> simp

/-- **C96, violated.** With the compact index the same entry is accepted: reads of other datasets are not affected, and every
read of its dataset follows a null pointer. -/
theorem C96_null_violated {es es' : List CEnt} (ht : WholeEntries ps)
    (h : (Idx.comp es).parse dsets true ps.flatten = .ok (.comp es')) (hx : WholeEntries [x])
    (hl : (if (kindField x).testBit 5 then 44 else 36) ≤ x.length) {d : DInfo} (hn : Named dsets x d) (hr : refers x = true)
    (hw : ¬ Target ps x) :
    ∃ es'', (Idx.comp es).parse dsets true (ps.flatten ++ x) = .ok (.comp es'') ∧
      (∀ q : RReq, (q.did : Int) ≠ numberField x → (Idx.comp es'').search q = (Idx.comp es').search q) ∧
      ∀ q : RReq, (q.did : Int) = numberField x → q.bs ≠ [] → (∃ v, (Idx.comp es').search q = .ok v) →
        (Idx.comp es'').search q = .ub := by
  obtain ⟨l1, l2⟩ := hx x (by simp)
  have hne : x ≠ [] := by rintro rfl; simp at l1
  obtain ⟨hd, h1, h2, h3, h4⟩ := hdr_after (ps := ps) l1
  obtain ⟨n, n1, n2⟩ := hn
  have hn := dsetOf_named (dsets := dsets) (i := hd.did) (n := n) (by rw [h3, n1]) n2
  have hr' : (true && hd.flags.ref) = true := by
    have : hd.flags.ref = refers x := by rw [h4]; rfl
    rw [this, hr]; rfl
  obtain ⟨y, g1, g2⟩ := Res.bind_ok h
  simp only [Res.pure_eq, Res.ok.injEq, Idx.comp.injEq] at g2
  obtain ⟨f, c, hk, e⟩ := parseLoop_tail (step := stepC dsets true ps.flatten) (step' := stepC dsets true (ps.flatten ++ x))
    (fun _ _ _ _ hv => stepC_more hv) (fun _ _ _ _ hv => stepC_keys hv) ht hne g1
  obtain ⟨rn, er⟩ : ∃ rn, rdRef (ps.flatten ++ x) ps.flatten.length hd = .ok (rn, refField x) := by
    rcases rdRef_after h4 ps.flatten with ⟨_, e⟩ | e
    · omega
    · exact e
  have hstep : ∃ ce : CEnt, ce.did = numberField x ∧ ce.blocks = none ∧
      stepC dsets true (ps.flatten ++ x) ps.flatten.length hd c = .ok ([ce], c) := by
    unfold stepC
    rw [hn, Res.ok_bind]
    simp only [hr', if_true]
    rw [er, Res.ok_bind]
    simp only [cacheGet_off hk hw, Res.pure_eq, Res.ok.injEq, Prod.mk.injEq, List.cons.injEq, and_true]
    exact ⟨_, h3, rfl, rfl⟩
  obtain ⟨ce, c1, c2, c3⟩ := hstep
  have ha : advance ps.flatten.length hd = .ok (ps.flatten ++ x).length := by
    unfold advance
    rw [h2, l2, if_neg (by omega), List.length_append]
    simp
  have hend : parseLoop (stepC dsets true (ps.flatten ++ x)) (ps.flatten ++ x) f (ps.flatten ++ x).length c = .ok [] := by
    cases f <;> simp [parseLoop]
  have hp : parseC dsets true (ps.flatten ++ x) = .ok (y ++ [ce]) := by
    unfold parseC
    rw [e, h1, Res.ok_bind, c3, Res.ok_bind, ha, Res.ok_bind, hend]
    rfl
  refine ⟨es' ++ [ce], ?_, fun q hq => ?_, fun q hq hb ⟨v, hv⟩ => ?_⟩
  · simp only [Idx.parse, hp]
    rw [Res.ok_bind, ← g2, List.append_assoc]
    rfl
  · show searchC _ q = searchC _ q
    unfold searchC
    have : (es' ++ [ce]).filter (fun e => e.did == (q.did : Int)) = es'.filter (fun e => e.did == (q.did : Int)) := by
      rw [List.filter_append]
      have : ¬ numberField x = (q.did : Int) := fun h => hq h.symm
      simp [c1, this]
    rw [this]
  · have hf : (es' ++ [ce]).filter (fun e => e.did == (q.did : Int)) = es'.filter (fun e => e.did == (q.did : Int)) ++ [ce] := by
      rw [List.filter_append]
      simp [c1, hq]
    change searchC es' q = .ok v at hv
    show searchC _ q = _
    unfold searchC at hv ⊢
    rw [hf]
    cases hbs : q.bs with
    | nil => exact absurd hbs hb
    | cons b bs =>
      rw [hbs, withOffs, flatMapRes] at hv
      obtain ⟨w, hw1, _⟩ := Res.bind_ok hv
      rw [withOffs, flatMapRes, flatMapRes_append hw1, flatMapRes]
      unfold searchEntC
      rw [c2]
      rfl

end

/-! ### Effects on the file -/

/-- **C96.** One damaged metadata dataset decides about all reads of the file: if its metadata is refused, every first read of
every process fails, and if handling it is undefined, so is every such read, whatever is read. -/
theorem C96_reads {st : FState} {m : Ext} {b : List Byte} (hm : st.mbuf = none) {r : Nat} (hr : st.idx[r]? = some none)
    {fuel : Nat} {qs : List RReq} {v : List Hit × FState} (hok : st.search fuel r qs = .ok v) (hb : m.body st.disk = .ok b)
    {rest : List Ext} :
    ((∀ ix : Idx, ix.parse st.dsets st.cfg.share b = .err) →
      ∀ fuel' qs', { st with mds := st.mds ++ m :: rest }.search fuel' r qs' = .err) ∧
    ((∀ ix : Idx, ix.parse st.dsets st.cfg.share b = .ub) →
      ∀ fuel' qs', { st with mds := st.mds ++ m :: rest }.search fuel' r qs' = .ub) := by
  have hload : ∀ (ms : List Ext) ix ix', loadAll st.dsets st.cfg.share st.disk ms ix = .ok ix' →
      loadAll st.dsets st.cfg.share st.disk (ms ++ m :: rest) ix =
        (do let i ← ix'.parse st.dsets st.cfg.share b
            loadAll st.dsets st.cfg.share st.disk rest i) := by
    intro ms
    induction ms with
    | nil =>
      intro ix ix' h
      simp only [loadAll, Res.ok.injEq] at h
      subst h
      simp only [List.nil_append, loadAll, hb, Res.ok_bind]
    | cons e ms ih =>
      intro ix ix' h
      simp only [loadAll] at h
      obtain ⟨b', g1, h⟩ := Res.bind_ok h
      obtain ⟨i, g2, h⟩ := Res.bind_ok h
      simp only [List.cons_append, loadAll, g1, g2, Res.ok_bind]
      exact ih i ix' h
  unfold FState.search at hok
  rw [hm] at hok
  simp only [hr] at hok
  obtain ⟨ix, h1, _⟩ := Res.bind_ok hok
  have e := hload _ _ _ h1
  refine ⟨fun hp fuel' qs' => ?_, fun hp fuel' qs' => ?_⟩
  · unfold FState.search
    simp only [hm, hr, e, hp]
    rfl
  · unfold FState.search
    simp only [hm, hr, e, hp]
    rfl

/-- Loading in parts goes on to what follows. -/
theorem loadPart_more {disk : Mem} {mds : List Ext} {m : Ext} {rest : List Ext} {lim md sec : Nat} {b : List Byte}
    {p : Option (Nat × Nat)} (h : loadPart disk mds lim md sec = .ok (b, p)) :
    loadPart disk (mds ++ m :: rest) lim md sec = .ok (b, some (p.getD (mds.length, 0))) ∧ ∀ q, p = some q → q.1 < mds.length := by
  unfold loadPart at h ⊢
  cases hm : mds[md]? with
  | none => rw [hm] at h; simp at h
  | some e =>
    have hlt : md < mds.length := (List.getElem?_eq_some_iff.mp hm).1
    rw [hm] at h
    rw [List.getElem?_append_left hlt, hm]
    simp only at h ⊢
    obtain ⟨hb, h1, h⟩ := Res.bind_ok h
    obtain ⟨ob, h2, h⟩ := Res.bind_ok h
    rw [h1, Res.ok_bind, h2, Res.ok_bind]
    by_cases g1 : unle hb ≤ sec
    · rw [if_pos g1] at h; simp at h
    rw [if_neg g1] at h ⊢
    generalize hs : (if sec = 0 then 8 * (unle hb + 1) else (words (unle hb) ob).getD (sec - 1) 0) = start at h ⊢
    generalize hi : partEnd start lim (sec + 1) ((words (unle hb) ob).drop (sec + 1)) = i at h ⊢
    generalize he : (words (unle hb) ob).getD (i - 1) 0 = e' at h ⊢
    by_cases g2 : e' < start
    · rw [if_pos g2] at h; simp at h
    rw [if_neg g2] at h ⊢
    obtain ⟨b', h3, h⟩ := Res.bind_ok h
    rw [h3, Res.ok_bind]
    simp only [Res.pure_eq, Res.ok.injEq, Prod.mk.injEq] at h ⊢
    obtain ⟨k1, k2⟩ := h
    subst k1 k2
    rw [List.length_append, List.length_cons]
    by_cases g3 : unle hb ≤ i
    · simp only [if_pos g3]
      rw [if_neg (by omega)]
      by_cases g4 : mds.length ≤ md + 1
      · rw [if_pos g4]
        refine ⟨⟨trivial, ?_⟩, fun q hq => by cases hq⟩
        have : md + 1 = mds.length := by omega
        rw [this]; rfl
      · rw [if_neg g4]
        refine ⟨⟨trivial, rfl⟩, fun q hq => ?_⟩
        cases hq
        show md + 1 < _
        omega
    · simp only [if_neg g3]
      rw [if_neg (by omega), if_neg (by omega)]
      refine ⟨⟨trivial, rfl⟩, fun q hq => ?_⟩
      cases hq
      exact hlt

theorem loadLoop_more {st : FState} {m : Ext} {rest : List Ext} {lim : Nat} {qs : List RReq} (k : Nat) :
    ∀ (fuel : Nat) (pos : Nat × Nat) (hs : List Hit), loadLoop st lim qs fuel pos = .ok hs →
      ∃ j, k ≤ j ∧ loadLoop { st with mds := st.mds ++ m :: rest } lim qs (fuel + k) pos =
        (do let hs' ← loadLoop { st with mds := st.mds ++ m :: rest } lim qs j (st.mds.length, 0)
            return hs ++ hs') := by
  intro fuel
  induction fuel with
  | zero => intro pos hs h; simp [loadLoop] at h
  | succ f ih =>
    intro pos hs h
    rw [loadLoop] at h
    obtain ⟨⟨b, p⟩, h1, h⟩ := Res.bind_ok h
    obtain ⟨ix, h2, h⟩ := Res.bind_ok h
    obtain ⟨h0, h3, h⟩ := Res.bind_ok h
    obtain ⟨e1, e2⟩ := loadPart_more (m := m) (rest := rest) h1
    rw [Nat.add_right_comm, loadLoop]
    simp only
    rw [e1, Res.ok_bind]
    simp only at h2 ⊢
    rw [h2, Res.ok_bind, h3, Res.ok_bind]
    cases p with
    | none =>
      simp only [Res.pure_eq, Res.ok.injEq] at h
      subst h
      exact ⟨f + k, by omega, rfl⟩
    | some q =>
      simp only at h
      obtain ⟨h', h4, h⟩ := Res.bind_ok h
      simp only [Res.pure_eq, Res.ok.injEq] at h
      obtain ⟨j, j1, j2⟩ := ih q h' h4
      refine ⟨j, j1, ?_⟩
      simp only [Option.getD_some]
      rw [j2, ← h]
      cases loadLoop { st with mds := st.mds ++ m :: rest } lim qs j (st.mds.length, 0) <;> simp

/-- **C96.** The same for files whose metadata is loaded in parts: the first part of a damaged metadata dataset decides about
every read that got through the metadata before it, the first and all later ones. -/
theorem C96_parts {st : FState} {m : Ext} {b : List Byte} {lim : Nat} (hm : st.mbuf = some lim) {r : Nat} {fuel : Nat}
    {qs : List RReq} {v : List Hit × FState} (hok : st.search fuel r qs = .ok v) {p : Option (Nat × Nat)}
    (hb : loadPart st.disk [m] lim 0 0 = .ok (b, p)) {rest : List Ext} {fuel' : Nat} (hf : fuel < fuel') :
    ((∀ ix : Idx, ix.parse st.dsets st.cfg.share b = .err) →
      { st with mds := st.mds ++ m :: rest }.search fuel' r qs = .err) ∧
    ((∀ ix : Idx, ix.parse st.dsets st.cfg.share b = .ub) →
      { st with mds := st.mds ++ m :: rest }.search fuel' r qs = .ub) := by
  have key : ∀ (s : FState) f, s.mbuf = some lim → s.search f r qs = (do let hs ← loadLoop s lim qs f (0, 0); return (hs, s)) := by
    intro s f hs
    unfold FState.search
    rw [hs]
  rw [key _ _ hm] at hok
  rw [key { st with mds := st.mds ++ m :: rest } _ hm]
  obtain ⟨hs, h1, _⟩ := Res.bind_ok hok
  obtain ⟨k, rfl⟩ : ∃ k, fuel' = fuel + (k + 1) := ⟨fuel' - fuel - 1, by omega⟩
  obtain ⟨j, j1, j2⟩ := loadLoop_more (m := m) (rest := rest) (k + 1) _ _ _ h1
  obtain ⟨j', rfl⟩ : ∃ j', j = j' + 1 := ⟨j - 1, by omega⟩
  have hp : ∃ p', loadPart st.disk (st.mds ++ m :: rest) lim st.mds.length 0 = .ok (b, p') := by
    unfold loadPart at hb ⊢
    rw [List.getElem?_append_right (Nat.le_refl _), Nat.sub_self]
    simp only [List.getElem?_cons_zero] at hb ⊢
    obtain ⟨hb', g1, hb⟩ := Res.bind_ok hb
    obtain ⟨ob, g2, hb⟩ := Res.bind_ok hb
    rw [g1, Res.ok_bind, g2, Res.ok_bind]
    by_cases c1 : unle hb' ≤ 0
    · rw [if_pos c1] at hb; simp at hb
    rw [if_neg c1] at hb ⊢
    simp only [if_true] at hb ⊢
    generalize hi : partEnd (8 * (unle hb' + 1)) lim (0 + 1) ((words (unle hb') ob).drop (0 + 1)) = i at hb ⊢
    generalize he : (words (unle hb') ob).getD (i - 1) 0 = e' at hb ⊢
    by_cases c2 : e' < 8 * (unle hb' + 1)
    · rw [if_pos c2] at hb; simp at hb
    rw [if_neg c2] at hb ⊢
    obtain ⟨b', g3, hb⟩ := Res.bind_ok hb
    rw [g3, Res.ok_bind]
    simp only [Res.pure_eq, Res.ok.injEq, Prod.mk.injEq] at hb ⊢
    exact ⟨_, hb.1, rfl⟩
  obtain ⟨p', hp'⟩ := hp
  rw [j2, loadLoop]
  simp only
  rw [hp', Res.ok_bind]
  refine ⟨fun hx => ?_, fun hx => ?_⟩
  · simp only [hx]; rfl
  · simp only [hx]; rfl

/-- **C96.** So for `h5ldump -H` of a file all of whose datasets are there: what the connector refuses it refuses, and what is
undefined there is undefined in it. (With data, h5ldump can have aborted at an earlier entry; for removed datasets it uses
descriptions that were never filled in.) -/
theorem C96_dump {T : DSets} (_hT : ∀ o ∈ T, o.isSome = true) {disk : Mem} {b : List Byte} {es : List MEnt} :
    ((Idx.list es).parse T true b = .err → dumpSec T disk false b = .err) ∧
    ((Idx.list es).parse T true b = .ub → dumpSec T disk false b = .ub) := by
  unfold dumpSec Idx.parse
  cases parseL T true b <;> simp

end Verif.Props
