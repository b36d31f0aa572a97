import Verif.Lemmas.FileLoad

namespace Verif

open Spec (AW AFile WriteOK MayWrite Fresh Small Layout Stored Known ReqsOK ReqsWF Repeats ReadOK ReadResult Viewable
  InBlk addrOf bufSize expected)

theorem Spec.ReqsOK.wf {compact : Bool} {dsets : DSets} {qs : List RReq} (h : ReqsOK compact dsets qs) :
    ReqsWF compact dsets qs :=
  ⟨h.dset, h.es, h.shape, h.cnt, h.head, h.bufs⟩

/-- Requests for disjoint blocks repeat nothing. -/
theorem Spec.ReqsOK.repeats {compact : Bool} {dsets : DSets} {qs : List RReq} (h : ReqsOK compact dsets qs)
    (log : List AW) : Repeats log qs := by
  have symm : ∀ {b b' : Blk}, Spec.NoCommon b b' → Spec.NoCommon b' b := fun h x hx => h x ⟨hx.2, hx.1⟩
  have key : ∀ q ∈ qs, ∀ q' ∈ qs, q ≠ q' → q.did = q'.did → ∀ b ∈ q.bs, ∀ b' ∈ q'.bs, Spec.NoCommon b b' := by
    intro q hq q' hq' hne hd b hb b' hb'
    rcases pairwise_mem h.disj2 hq hq' with rfl | h1 | h1
    · exact absurd rfl hne
    · exact h1 hd b hb b' hb'
    · exact symm (h1 hd.symm b' hb' b hb)
  constructor
  · intro q hq q' hq' hd b hb b' hb'
    by_cases he : q = q'
    · subst he
      rcases pairwise_mem (h.disj q hq) hb hb' with h1 | h1 | h1
      · exact Or.inl h1
      · exact Or.inr h1
      · exact Or.inr (symm h1)
    · exact Or.inr (key q hq q' hq' he hd b hb b' hb')
  · intro q hq q' hq' hd i i' hi hi' hne c hc hc'
    exfalso
    by_cases he : q = q'
    · subst he
      have hp := List.pairwise_iff_getElem.mp (h.disj q hq)
      rcases Nat.lt_trichotomy i i' with h1 | h1 | h1
      · exact hp i i' hi hi' h1 c ⟨hc, hc'⟩
      · exact hne (by rw [h1])
      · exact hp i' i hi' hi h1 c ⟨hc', hc⟩
    · exact key q hq q' hq' he hd _ (List.getElem_mem hi) _ (List.getElem_mem hi') c ⟨hc, hc'⟩

section
variable {cfg : Cfg} {g : Ghost} {st : FState} {a : AFile}

theorem Inv.foff (h : Inv cfg g st a) : ∀ x ∈ g.mdx.flatten.flatten, 0 ≤ x.2.foff ∧ x.2.foff < 2 ^ 63 := by
  intro x hx
  have hm : loc x ∈ g.ls := h.perm.mem_iff.mpr (List.mem_map_of_mem (by simp only [List.mem_append]; exact Or.inl hx))
  refine ⟨h.lay.lo _ hm, ?_⟩
  obtain ⟨e, he, _, h2⟩ := h.inl _ hm
  have := h.small e (by simp [he])
  simp only [loc] at h2
  omega

theorem Inv.hdrs (h : Inv cfg g st a) : ∀ x ∈ g.mdx.flatten.flatten, x.2.did = x.1.did ∧ x.2.data = x.1.data := by
  intro x hx
  obtain ⟨s, hs, hxs⟩ := List.mem_flatten.mp hx
  obtain ⟨p, q, e⟩ := List.append_of_mem hxs
  have := secElem_hdr ((h.sec s hs).1 p x q e)
  exact ⟨this.1, this.2.1⟩

theorem Inv.readOK (h : Inv cfg g st a) (he : a.epoch.flatten = []) {qs : List RReq}
    (hq : ReqsWF st.compact a.dsets qs) : ReadOK g.ls qs := by
  have hm : ∀ x ∈ g.ls, WriteOK cfg x.1 ∧ Known st.dsets x.1 := by
    intro x hx
    have := h.perm.mem_iff.mp hx
    rw [h.fl_nil he, List.append_nil] at this
    obtain ⟨y, hy, rfl⟩ := List.mem_map.mp this
    exact h.wokm y hy
  refine ⟨hq.es, hq.shape, hq.bufs, ?_, ?_⟩
  · intro x hx q hqm hd
    have h1 := hq.dset q hqm
    rw [← h.dsets, ← hd] at h1
    have := (hm x hx).2.2 q.d h1
    exact ⟨this.1.symm, this.2.symm⟩
  · intro x hx b hb
    have := (hm x hx).1.sel.blk b hb
    exact ⟨this.1, this.2⟩

end

/-! ### Fill values -/

theorem fillLoop_out (e : Nat) (fv : List Byte) : ∀ (n x : Nat) (mem : Mem) (y : Nat),
    (y < x ∨ x + e * n ≤ y) → fillLoop e fv n x mem y = mem y
  | 0, x, mem, y, _ => rfl
  | n + 1, x, mem, y, h => by
    unfold fillLoop putBytes
    have hl : (fv.take e).length ≤ e := by rw [List.length_take]; omega
    rw [Nat.mul_add, Nat.mul_one] at h
    rw [fillLoop_out e fv n, writeAt_out (by omega)]
    omega

theorem fillLoop_in (e : Nat) (fv : List Byte) : ∀ (n x : Nat) (mem : Mem) (j k : Nat), j < n → k < e →
    fillLoop e fv n x mem (x + e * j + k) = (fv[k]?).getD (mem (x + e * j + k))
  | 0, x, mem, j, k, hj, _ => by omega
  | n + 1, x, mem, j, k, hj, hk => by
    unfold fillLoop putBytes
    cases j with
    | zero =>
      rw [Nat.mul_zero, Nat.add_zero, fillLoop_out e fv n _ _ _ (Or.inl (by omega))]
      unfold writeAt
      rw [if_pos (by omega), Nat.add_sub_cancel_left, List.getElem?_take_of_lt hk]
    | succ j =>
      have e1 : x + e * (j + 1) + k = (x + e) + e * j + k := by rw [Nat.mul_add]; omega
      have hl : (fv.take e).length ≤ e := by rw [List.length_take]; omega
      rw [e1, fillLoop_in e fv n _ _ j k (by omega) hk, writeAt_out (Or.inr (by omega))]

/-- What the fill loop of a request leaves outside its buffer. -/
theorem fillReq_out {fill : Nat → Option (List Byte)} {q : RReq} {mem : Mem} {y : Nat}
    (h : ¬ (q.xbuf ≤ y ∧ y < q.xbuf + bufSize q)) : fillReq fill mem q y = mem y := by
  have hb : bufSize q = q.d.esize * q.elems := dataOffset_total
  unfold fillReq
  cases fill q.did with
  | none => rfl
  | some fv =>
    apply fillLoop_out
    omega

theorem prefill_out {fill : Nat → Option (List Byte)} {qs : List RReq} : ∀ {mem : Mem} {y : Nat},
    (∀ q ∈ qs, ¬ (q.xbuf ≤ y ∧ y < q.xbuf + bufSize q)) → prefill fill qs mem y = mem y := by
  induction qs with
  | nil => intro mem y _; rfl
  | cons q qs ih =>
    intro mem y h
    have hstep : prefill fill (q :: qs) mem = prefill fill qs (fillReq fill mem q) := rfl
    rw [hstep, ih (fun q' hq' => h q' (by simp [hq'])), fillReq_out (h q (by simp))]

theorem prefill_in {fill : Nat → Option (List Byte)} {qs : List RReq} : ∀ {mem : Mem}
    (_ : qs.Pairwise (fun q q' => q.xbuf + bufSize q ≤ q'.xbuf ∨ q'.xbuf + bufSize q' ≤ q.xbuf))
    {q : RReq} (_ : q ∈ qs) {j k : Nat} (_ : j < q.elems) (_ : k < q.d.esize),
    prefill fill qs mem (q.xbuf + q.d.esize * j + k) = (match fill q.did with
      | none => mem (q.xbuf + q.d.esize * j + k)
      | some fv => (fv[k]?).getD (mem (q.xbuf + q.d.esize * j + k))) := by
  induction qs with
  | nil => intro mem _ q hq; simp at hq
  | cons q0 qs ih =>
    intro mem hp q hq j k hj hk
    rw [List.pairwise_cons] at hp
    have hlt : q.d.esize * j + k < bufSize q := by
      have hb : bufSize q = q.d.esize * q.elems := dataOffset_total
      rw [hb]; exact mul_add_lt hj hk
    have hstep : prefill fill (q0 :: qs) mem = prefill fill qs (fillReq fill mem q0) := rfl
    rw [hstep]
    rcases List.mem_cons.mp hq with rfl | hq
    · rw [prefill_out]
      · unfold fillReq
        cases hf : fill q.did with
        | none => rfl
        | some fv => exact fillLoop_in q.d.esize fv q.elems q.xbuf mem j k hj hk
      · intro q' hq'
        have := hp.1 q' hq'
        omega
    · rw [ih hp.2 hq hj hk, fillReq_out]
      have h0 := hp.1 q hq
      omega

/-! ### Sorting -/

/-- Lexicographic order of lists. -/
def lexLe : List Nat → List Nat → Bool
  | [], _ => true
  | _ :: _, [] => false
  | a :: as, b :: bs => decide (a < b) || (decide (a = b) && lexLe as bs)

theorem lexLe_total : ∀ a b : List Nat, lexLe a b = true ∨ lexLe b a = true
  | [], _ => by simp [lexLe]
  | _ :: _, [] => by simp [lexLe]
  | a :: as, b :: bs => by
    have := lexLe_total as bs
    simp only [lexLe, Bool.or_eq_true, Bool.and_eq_true, decide_eq_true_eq]
    rcases Nat.lt_trichotomy a b with h | h | h
    · exact Or.inl (Or.inl h)
    · rcases this with h' | h'
      · exact Or.inl (Or.inr ⟨h, h'⟩)
      · exact Or.inr (Or.inr ⟨h.symm, h'⟩)
    · exact Or.inr (Or.inl h)

theorem lexLe_trans : ∀ {a b c : List Nat}, lexLe a b = true → lexLe b c = true → lexLe a c = true
  | [], _, _, _, _ => by simp [lexLe]
  | a :: as, [], _, h, _ => by simp [lexLe] at h
  | a :: as, b :: bs, [], _, h => by simp [lexLe] at h
  | a :: as, b :: bs, c :: cs, h, h' => by
    simp only [lexLe, Bool.or_eq_true, Bool.and_eq_true, decide_eq_true_eq] at h h' ⊢
    rcases h with h | ⟨h, h1⟩
    · rcases h' with h' | ⟨h', _⟩ <;> exact Or.inl (by omega)
    · rcases h' with h' | ⟨h', h2⟩
      · exact Or.inl (by omega)
      · exact Or.inr ⟨by omega, lexLe_trans h1 h2⟩

theorem lexLt_of_lexLe : ∀ {a b : List Nat}, lexLe a b = true → lexLt b a = false
  | [], b, _ => by cases b <;> rfl
  | a :: as, [], h => by simp [lexLe] at h
  | a :: as, b :: bs, h => by
    simp only [lexLe, Bool.or_eq_true, Bool.and_eq_true, decide_eq_true_eq] at h
    unfold lexLt
    rcases h with h | ⟨rfl, h⟩
    · rw [if_neg (by omega), if_pos h]
    · rw [if_neg (by omega), if_neg (by omega)]
      exact lexLt_of_lexLe h

theorem sortedHits_exists (raw : List Hit) : ∃ hs, SortedHits raw hs := by
  let le : Hit → Hit → Bool := fun a b =>
    decide (a.key < b.key) || (decide (a.key = b.key) && lexLe a.dstart b.dstart)
  refine ⟨raw.mergeSort le, List.mergeSort_perm raw le, ?_⟩
  have hs := List.pairwise_mergeSort (le := le) (by
    intro a b c h h'
    simp only [le, Bool.or_eq_true, Bool.and_eq_true, decide_eq_true_eq] at h h' ⊢
    rcases h with h | ⟨h, h1⟩
    · rcases h' with h' | ⟨h', _⟩ <;> exact Or.inl (by omega)
    · rcases h' with h' | ⟨h', h2⟩
      · exact Or.inl (by omega)
      · exact Or.inr ⟨by omega, lexLe_trans h1 h2⟩) (by
    intro a b
    have := lexLe_total a.dstart b.dstart
    simp only [le, Bool.or_eq_true, Bool.and_eq_true, decide_eq_true_eq]
    rcases Int.lt_trichotomy a.key b.key with h | h | h
    · exact Or.inl (Or.inl h)
    · rcases this with h' | h'
      · exact Or.inl (Or.inr ⟨h, h'⟩)
      · exact Or.inr (Or.inr ⟨h.symm, h'⟩)
    · exact Or.inr (Or.inl h)) raw
  refine hs.imp ?_
  intro a b h
  simp only [le, Bool.or_eq_true, Bool.and_eq_true, decide_eq_true_eq] at h
  unfold hitLt
  rcases h with h | ⟨h, h'⟩
  · rw [if_neg (by omega), if_pos h]
  · rw [if_neg (by omega), if_neg (by omega)]
    exact lexLt_of_lexLe h'

/-! ### Reads -/

theorem perm_lift {α β : Type} {f : α → β} {m n : List β} (h : m.Perm n) : ∀ l : List α, l.map f = m →
    ∃ l' : List α, l'.Perm l ∧ l'.map f = n := by
  induction h with
  | nil => intro l hl; exact ⟨l, List.Perm.refl _, hl⟩
  | @cons x m n _ ih =>
    intro l hl
    cases l with
    | nil => simp at hl
    | cons y l =>
      simp only [List.map_cons, List.cons.injEq] at hl
      obtain ⟨l', h1, h2⟩ := ih l hl.2
      exact ⟨y :: l', h1.cons y, by simp [h2, hl.1]⟩
  | swap x y m =>
    intro l hl
    match l, hl with
    | a :: b :: l, hl =>
      simp only [List.map_cons, List.cons.injEq] at hl
      exact ⟨b :: a :: l, List.Perm.swap _ _ _, by simp [hl]⟩
  | trans _ _ ih1 ih2 =>
    intro l hl
    obtain ⟨l1, a1, a2⟩ := ih1 l hl
    obtain ⟨l2, b1, b2⟩ := ih2 l1 a2
    exact ⟨l2, b1.trans a1, b2⟩

/-- Position of a cell in the buffer. -/
theorem addrOf_elem {q : RReq} {i : Nat} (hi : i < q.bs.length) {c : List Nat} (hc : InBlk q.bs[i] c) (k : Nat) :
    ∃ j, j < q.elems ∧ addrOf q i q.bs[i] c k = q.xbuf + q.d.esize * j + k := by
  refine ⟨((q.bs.take i).map Blk.size).sum + Spec.idxIn q.bs[i] c, ?_, ?_⟩
  · have := prefixSum_le (bs := q.bs) hi (Nat.le_refl _)
    rw [List.take_length] at this
    have h2 := lin_lt hc
    rw [← idxIn_eq hc] at h2
    unfold RReq.elems
    have e : (q.bs[i]).size = prod (q.bs[i]).count := rfl
    omega
  · unfold addrOf Spec.dataOffset
    rw [Nat.mul_add]
    omega

/-- What a read returns whose search finds the blocks of the log. -/
theorem found_result {cfg : Cfg} {g : Ghost} {st : FState} {a : AFile} (h : Inv cfg g st a) {qs : List RReq}
    (hq : ReqsWF st.compact a.dsets qs) (he : a.epoch.flatten = []) (rp : Repeats a.done qs) {raw hs : List Hit}
    (hr : raw.map Hit.noX = qs.flatMap (fun q => hitsReq q g.ls)) (hsort : SortedHits raw hs)
    {fill : Nat → Option (List Byte)} {mem mem' : Mem} (e : coreRead st.disk hs (prefill fill qs mem) = .ok mem') :
    ReadResult a.done fill qs mem mem' := by
  obtain ⟨v1, v2⟩ := read_value h.lay (h.readOK he hq) (by rw [h.done]; exact rp) h.sto hr hsort e
  constructor
  · intro q hqm i hi' c hc k hk
    rw [v1 q hqm i hi' c hc k hk, h.done]
    obtain ⟨j, j1, j2⟩ := addrOf_elem hi' hc k
    have hp := prefill_in (fill := fill) (mem := mem) hq.bufs hqm j1 hk
    rw [← j2] at hp
    rw [hp]
    unfold expected
    cases Spec.lastByte a.done q.did c k with
    | some v => rfl
    | none => cases fill q.did <;> rfl
  · intro x hx
    rw [v2 x hx, prefill_out hx]

theorem found_lift {qs : List RReq} {ls : List (AW × Int)} {raw hs : List Hit}
    (h : (raw.map Hit.noX).Perm (qs.flatMap (fun q => hitsReq q ls))) (hsort : SortedHits raw hs) :
    ∃ raw', SortedHits raw' hs ∧ raw'.map Hit.noX = qs.flatMap (fun q => hitsReq q ls) := by
  obtain ⟨raw', p1, p2⟩ := perm_lift h raw rfl
  exact ⟨raw', ⟨hsort.1.trans p1.symm, hsort.2⟩, p2⟩

/-- A read whose search finds the blocks of the log. -/
theorem read_found {cfg : Cfg} {g : Ghost} {st : FState} {a : AFile} (h : Inv cfg g st a) {qs : List RReq}
    (hq : ReqsWF st.compact a.dsets qs) {r : Nat} (he : a.epoch.flatten = []) {fuel : Nat}
    (hfound : ∃ raw st', st.search fuel r qs = .ok (raw, st') ∧
      (raw.map Hit.noX).Perm (qs.flatMap (fun q => hitsReq q g.ls)))
    {fill : Nat → Option (List Byte)} {mem : Mem} :
    (Viewable qs → ∃ mem', st.reads fuel r fill qs mem (.ok mem')) ∧
    (Viewable qs → ∀ out, st.reads fuel r fill qs mem out → ∃ mem', out = .ok mem') ∧
    (Repeats a.done qs → ∀ mem', st.reads fuel r fill qs mem (.ok mem') → ReadResult a.done fill qs mem mem') := by
  obtain ⟨raw, st', s1, s2⟩ := hfound
  have ok := h.readOK he hq
  have lift := fun hs (hsort : SortedHits raw hs) => found_lift s2 hsort
  have inv : ∀ out, st.reads fuel r fill qs mem out → ∃ hs, SortedHits raw hs ∧
      out = readHits st.disk hs (prefill fill qs mem) := by
    intro out ho
    rcases ho with ⟨raw1, st1, hs, e1, e2, e3⟩ | ⟨e1, _⟩ | ⟨e1, _⟩
    · rw [s1] at e1
      simp only [Res.ok.injEq, Prod.mk.injEq] at e1
      rw [← e1.1] at e2
      exact ⟨hs, e2, e3⟩
    · rw [s1] at e1; simp at e1
    · rw [s1] at e1; simp at e1
  refine ⟨?_, ?_, ?_⟩
  · intro hv
    obtain ⟨hs, hsort⟩ := sortedHits_exists raw
    obtain ⟨raw', r1, r2⟩ := lift hs hsort
    obtain ⟨mem', hm'⟩ := read_total h.lay ok hv st.disk (prefill fill qs mem) r2 r1
    exact ⟨mem', Or.inl ⟨raw, st', hs, s1, hsort, hm'.symm⟩⟩
  · intro hv out ho
    obtain ⟨hs, hsort, e⟩ := inv out ho
    obtain ⟨raw', r1, r2⟩ := lift hs hsort
    obtain ⟨mem', hm'⟩ := read_total h.lay ok hv st.disk (prefill fill qs mem) r2 r1
    exact ⟨mem', by rw [e, hm']⟩
  · intro rp mem' ho
    obtain ⟨hs, hsort, e⟩ := inv _ ho
    obtain ⟨raw', r1, r2⟩ := lift hs hsort
    exact found_result h hq he rp r2 r1 (readHits_core e.symm)

end Verif
