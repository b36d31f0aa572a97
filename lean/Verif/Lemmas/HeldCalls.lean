import Verif.Lemmas.HeldFlush

/-
What reads, writes, flushes of the file and closes lose.
-/

namespace Verif.Held

/-- Counts the elements of both sides. -/
macro "permc " h:ident : tactic => `(tactic| (
  rw [List.perm_iff_count] at $h:ident ⊢
  intro a
  have := $h:ident a
  simp only [List.count_append, List.count_cons, List.count_nil, List.cons_append, List.nil_append] at this ⊢
  omega))

/-- A request as `H5VL_log_dataseti_read` builds it. -/
structure RQ.WF (r : RQ) : Prop where
  kinds : ∀ t ∈ r.toks, t.kind ∈ [Kind.rreq, .sel, .xbuf, .ptype, .dtype, .mtype]
  pack : r.xbuf = none → r.ptype = none
  conv : r.dtype.isSome = r.mtype.isSome

theorem RQ.WF.frag {r : RQ} (h : r.WF) : Frag r.toks := by
  intro t ht
  have := h.kinds t ht
  simp only [List.mem_cons, List.not_mem_nil, or_false] at this
  rcases this with h | h | h | h | h | h <;> (rw [h]; rfl)

theorem frag_sub {Y Z : List Tok} (h : Frag Y) (hs : ∀ t ∈ Z, t ∈ Y) : Frag Z := fun t ht => h t (hs t ht)

theorem wp_putX {t : Tok} {s : St} {X : List Tok} {Q : Out Unit → St → Prop} (hm : s.held.Perm (t :: X))
    (h : ∀ hd, List.Perm hd X → Q (.ok ()) { s with held := hd }) : wp (put t) s Q :=
  wp_put hm (h _ (erase_perm hm))

theorem wp_held {d : Tok} {m n : M Unit} {s : St} {Q : Out Unit → St → Prop} (h : d ∈ s.held) (hm : wp m s Q) :
    wp (fun s => if d ∈ s.held then m s else n s) s Q := by
  intro o ho
  simp only [if_pos h] at ho
  exact hm o ho

theorem post_wp {r : RQ} {s : St} {Z : List Tok} {Q : Out Unit → St → Prop} (hw : r.WF) (hp : s.held.Perm (r.toks ++ Z))
    (ht : r.dtype ≠ none → ∀ hd W, List.Perm hd (W ++ Z) → Frag W → Q .thrown { s with held := hd })
    (hk : ∀ hd, List.Perm hd ([r.req, r.sel] ++ Z) → Q (.ok ()) { s with held := hd }) : wp (post r) s Q := by
  -- the end, after the conversion
  have tail : ∀ (s1 : St), s1 = { s with held := s1.held } → s1.held.Perm ([r.req, r.sel] ++ (r.xbuf.toList ++ (r.ptype.toList ++ Z))) →
      wp (match r.xbuf with
        | some x => do
          use x
          match r.ptype with
          | some p => put p
          | none => Pure.pure ()
          put x
        | none => Pure.pure () : M Unit) s1 Q := by
    intro s1 hs hp1
    cases hx : r.xbuf with
    | none =>
      have hn := hw.pack hx
      simp only [hx, hn, Option.toList_none, List.nil_append] at hp1
      rw [hs]
      exact wp_pure (hk _ hp1)
    | some x =>
      simp only [hx, Option.toList_some] at hp1
      have hm : x ∈ s1.held := hp1.mem_iff.mpr (by simp)
      simp only []
      refine wp_bind (wp_use hm ?_)
      cases hpt : r.ptype with
      | none =>
        simp only [hpt, Option.toList_none, List.nil_append] at hp1
        refine wp_putX (X := [r.req, r.sel] ++ Z) ?_ ?_
        · rw [List.perm_iff_count] at hp1 ⊢
          intro a
          have := hp1 a
          simp only [List.count_append, List.count_cons, List.count_nil] at this ⊢
          omega
        · intro hd hp2
          rw [hs]
          exact hk hd hp2
      | some p =>
        simp only [hpt, Option.toList_some] at hp1
        refine wp_bind (wp_putX (X := x :: ([r.req, r.sel] ++ Z)) ?_ ?_)
        · rw [List.perm_iff_count] at hp1 ⊢
          intro a
          have := hp1 a
          simp only [List.count_append, List.count_cons, List.count_nil] at this ⊢
          omega
        · intro hd hp2
          refine wp_putX (X := [r.req, r.sel] ++ Z) hp2 ?_
          intro hd' hp3
          rw [hs]
          exact hk hd' hp3
  unfold post
  cases hd : r.dtype with
  | none =>
    have hm : r.mtype = none := by
      have := hw.conv
      rw [hd] at this
      simpa using this.symm
    simp only []
    refine tail s rfl ?_
    unfold RQ.toks at hp
    rw [hd, hm] at hp
    simpa using hp
  | some d =>
    obtain ⟨m, hm⟩ : ∃ m, r.mtype = some m := by
      have := hw.conv
      rw [hd] at this
      simpa [Option.isSome_iff_exists] using this.symm
    rw [hm]
    unfold RQ.toks at hp
    rw [hd, hm] at hp
    simp only [Option.toList_some] at hp
    have hin : d ∈ s.held := hp.mem_iff.mpr (by simp)
    simp only []
    refine wp_bind (wp_held hin ?_)
    have hf := hw.frag
    unfold RQ.toks at hf
    rw [hd, hm] at hf
    have hc : wp (run [.call]) s fun o s' => (o = .ok () ∨ o = .thrown) ∧ s' = s := by
      intro o ho
      simp [run, step, bind, M.andThen, pure] at ho
      rcases ho with rfl | rfl <;> simp
    refine wp_bind (wp_mono hc ?_)
    rintro o s1 ⟨ho, rfl⟩
    rcases ho with rfl | rfl
    · refine wp_bind (wp_putX (X := m :: ([r.req, r.sel] ++ (r.xbuf.toList ++ (r.ptype.toList ++ Z)))) (by permc hp) ?_)
      intro hd1 hp1
      refine wp_putX hp1 ?_
      intro hd2 hp2
      exact tail { s1 with held := hd2 } rfl hp2
    · exact ht (by rw [hd]; simp) s1.held _ hp hf

theorem posts_wp : ∀ {rs : List RQ} {s : St} {Z : List Tok} {Q : Out Unit → St → Prop}, (∀ r ∈ rs, r.WF) →
    s.held.Perm (rs.flatMap RQ.toks ++ Z) →
    ((∃ r ∈ rs, r.dtype ≠ none) → ∀ hd W, List.Perm hd (W ++ Z) → Frag W → Q .thrown { s with held := hd }) →
    (∀ hd, List.Perm hd (rs.flatMap (fun r => [r.req, r.sel]) ++ Z) → Q (.ok ()) { s with held := hd }) → wp (posts rs) s Q
  | [], s, Z, Q, _, hp, _, hk => wp_pure (hk s.held (by simpa using hp))
  | r :: rs, s, Z, Q, hw, hp, ht, hk => by
    have hfr : Frag (rs.flatMap RQ.toks) := by
      intro t h
      obtain ⟨r', h1, h2⟩ := List.mem_flatMap.mp h
      exact (hw r' (by simp [h1])).frag t h2
    rw [List.flatMap_cons] at hp
    refine wp_bind (post_wp (Z := rs.flatMap RQ.toks ++ Z) (hw r (by simp)) (by rw [List.append_assoc] at hp; exact hp) ?_ ?_)
    · intro hd1 hd W hpw hW
      refine ht ⟨r, by simp, hd1⟩ hd (W ++ rs.flatMap RQ.toks) (by rw [List.append_assoc]; exact hpw) (hW.append hfr)
    · intro hd hp1
      refine posts_wp (s := { s with held := hd }) (Z := [r.req, r.sel] ++ Z) (fun x hx => hw x (by simp [hx])) (by permc hp1) ?_ ?_
      · rintro ⟨x, hx, hx'⟩ hd' W hpw hW
        refine ht ⟨x, by simp [hx], hx'⟩ hd' (W ++ [r.req, r.sel]) (by rw [List.append_assoc]; exact hpw) (hW.append ?_)
        refine frag_sub (hw r (by simp)).frag ?_
        intro t h
        simp only [List.mem_cons, List.not_mem_nil, or_false] at h
        unfold RQ.toks
        rcases h with rfl | rfl <;> simp
      · intro hd' hp2
        refine hk hd' ?_
        rw [List.flatMap_cons]
        permc hp2

def finR : List Kind := [.tbuf, .rtype, .ftype]

theorem performRead_wp {c : Conf} {e : Env} {rs : List RQ} {s : St} {X : List Tok} {Q : Out Unit → St → Prop}
    (hg : Good s (rs.flatMap RQ.toks ++ X)) (hi : Inv s.file) (hw : ∀ r ∈ rs, r.WF)
    (ht1 : ∀ s' Y, s'.loc = s.loc → s'.file.rq = s.file.rq → Inv s'.file → Frag Y → Good s' (Y ++ (rs.flatMap RQ.toks ++ X)) → Q .thrown s')
    (ht2 : (∃ r ∈ rs, r.dtype ≠ none) → ∀ s' Y, s'.loc = s.loc → s'.file.rq = s.file.rq → Inv s'.file → Frag Y → Good s' (Y ++ X) →
      Q .thrown s')
    (hk : ∀ s' Y, s'.loc = s.loc → s'.file.rq = s.file.rq → Inv s'.file → Frag Y → Searched c e s.file s'.file (Y.map (·.kind)) →
      Good s' (Y ++ (rs.flatMap (fun r => [r.req, r.sel]) ++ X)) → Q (.ok ()) s') : wp (performRead c e rs) s Q := by
  unfold performRead
  have h0 : In s.file.rq (rs.flatMap RQ.toks ++ (s.loc ++ X)) [] [] { s with loc := [] } := by
    refine ⟨⟨?_, rfl⟩, frag_nil, hi, rfl⟩
    unfold Good at hg ⊢
    permc hg
  -- exceptions before the requests are dealt with
  have bad : ∀ s', Bad finR s.file.rq (rs.flatMap RQ.toks ++ (s.loc ++ X)) s' → ∃ Z ks, At s' Z ks ∧ ∀ s'' W, W.map (·.kind) = left finR ks →
      s''.loc = s.loc → s''.file = s'.file → s''.held.Perm (W ++ (s''.file.toks ++ Z)) → Q .thrown s'' := by
    rintro s' ⟨Y, ks, h1, h2⟩
    refine ⟨_, ks, h1.at_, ?_⟩
    intro s'' W hW hl hf hp
    refine ht1 s'' (W ++ Y) hl (by rw [hf]; exact h1.rq) (hf ▸ h1.inv) ((frag_kinds hW h2).append h1.frag) ?_
    unfold Good
    rw [hl]
    permc hp
  refine wp_frame ?_
  refine wp_bind (h0.fn (search_fn c e) (fin := finR) (by decide) bad ?_)
  intro _ s1 Y1 r1 h1
  rw [List.append_nil] at h1
  simp only []
  refine wp_bind (wp_pick fun hit => ?_)
  simp only []
  -- the end
  have tail : ∀ (s2 : St) (ks : List Kind), ks ∈ ([[], [.rtype, .ftype]] : List (List Kind)) →
      In s.file.rq (rs.flatMap RQ.toks ++ (s.loc ++ X)) ks Y1 s2 → s2.file = s1.file →
      wp (do
        let filtered ← pick
        run (if filtered = true then [.mal .tbuf, .call] else [])
        posts rs : M Unit) s2 fun o s' => ∃ Z ks, At s' Z ks ∧ ∀ s'' W, W.map (·.kind) = left finR ks → s''.loc = s.loc →
      s''.file = s'.file → s''.held.Perm (W ++ (s''.file.toks ++ Z)) → Q o s'' := by
    intro s2 ks hks h2 hf2
    refine wp_bind (wp_pick fun filtered => ?_)
    have c1 : ∀ ks ∈ ([[], [.rtype, .ftype]] : List (List Kind)), ∀ filtered : Bool,
        chk finR (if filtered = true then [.mal .tbuf, .call] else []) ks [((if filtered then [.tbuf] else []) ++ ks, [])] = true ∧
        left finR ((if filtered then [.tbuf] else []) ++ ks) = [] := by decide
    refine wp_bind (h2.run (c1 ks hks filtered).1 bad ?_)
    intro e' he s3 Z hf3 hZ h3
    simp only [List.mem_singleton] at he
    subst he
    simp only [List.map_eq_nil_iff] at hZ
    subst hZ
    simp only [List.nil_append] at h3
    have hh := h3.held
    refine posts_wp (Z := s3.loc ++ (s3.file.toks ++ (Y1 ++ (s.loc ++ X)))) hw (by permc hh) ?_ ?_
    · intro hx hd V hp hV
      refine ⟨V ++ (Y1 ++ (s.loc ++ X)), _, ⟨?_, h3.at_.2⟩, ?_⟩
      · unfold Good
        permc hp
      · intro s'' W hW hl hf hp'
        rw [(c1 ks hks filtered).2, List.map_eq_nil_iff] at hW
        subst hW
        refine ht2 hx s'' (V ++ Y1) hl (by rw [hf]; exact h3.rq) (hf ▸ h3.inv) (hV.append h3.frag) ?_
        unfold Good
        rw [hl]
        permc hp'
    · intro hd hp
      refine ⟨Y1 ++ (rs.flatMap (fun r => [r.req, r.sel]) ++ (s.loc ++ X)), _, ⟨?_, h3.at_.2⟩, ?_⟩
      · unfold Good
        permc hp
      · intro s'' W hW hl hf hp'
        rw [(c1 ks hks filtered).2, List.map_eq_nil_iff] at hW
        subst hW
        refine hk s'' Y1 hl (by rw [hf]; exact h3.rq) (hf ▸ h3.inv) h3.frag ?_ ?_
        · rw [hf]
          simp only []
          rw [hf3, hf2]
          exact r1
        · unfold Good
          rw [hl]
          permc hp'
  by_cases hb : (!c.passthru && hit) = true
  · rw [if_pos hb]
    have c1 : chk finR [.acq .ftype, .acq .rtype, .call] [] [([.rtype, .ftype], [])] = true := by decide
    have c2 : chk finR [.call] [.rtype, .ftype] [([.rtype, .ftype], [])] = true := by decide
    refine wp_bind (h1.run c1 bad ?_)
    intro e' he s2 Z hf2 hZ h2
    simp only [List.mem_singleton] at he
    subst he
    simp only [List.map_eq_nil_iff] at hZ
    subst hZ
    simp only [List.nil_append] at h2
    refine wp_bind (wp_useAll ?_ ?_)
    · intro t ht
      refine h2.held.mem_iff.mpr ?_
      obtain ⟨r, hr, hx⟩ := List.mem_filterMap.mp ht
      have : t ∈ rs.flatMap RQ.toks := List.mem_flatMap.mpr ⟨r, hr, by unfold RQ.toks; simp [hx]⟩
      simp [this]
    refine wp_bind (h2.run c2 bad ?_)
    intro e' he s3 Z hf3 hZ h3
    simp only [List.mem_singleton] at he
    subst he
    simp only [List.map_eq_nil_iff] at hZ
    subst hZ
    simp only [List.nil_append] at h3
    exact tail s3 _ (by simp) h3 (by rw [hf3, hf2])
  · rw [if_neg hb]
    have c1 : chk finR [.call] [] [([], [])] = true := by decide
    refine wp_bind (h1.run c1 bad ?_)
    intro e' he s2 Z hf2 hZ h2
    simp only [List.mem_singleton] at he
    subst he
    simp only [List.map_eq_nil_iff] at hZ
    subst hZ
    simp only [List.nil_append] at h2
    exact tail s2 _ (by simp) h2 (by rw [hf2])

theorem flushReads_wp {c : Conf} {e : Env} {rs : List RQ} {s : St} {X : List Tok} {Q : Out Unit → St → Prop}
    (hg : Good s (rs.flatMap RQ.toks ++ X)) (hi : Inv s.file) (hw : ∀ r ∈ rs, r.WF)
    (ht1 : ∀ s' Y, s'.loc = s.loc → s'.file.rq = s.file.rq → Inv s'.file → Frag Y → Good s' (Y ++ (rs.flatMap RQ.toks ++ X)) → Q .thrown s')
    (ht2 : (∃ r ∈ rs, r.dtype ≠ none) → ∀ s' Y, s'.loc = s.loc → s'.file.rq = s.file.rq → Inv s'.file → Frag Y → Good s' (Y ++ X) →
      Q .thrown s')
    (hk : ∀ s' Y, s'.loc = s.loc → s'.file.rq = s.file.rq → Inv s'.file → Frag Y → Searched c e s.file s'.file (Y.map (·.kind)) →
      Good s' (Y ++ X) → Q (.ok ()) s') : wp (flushReads c e rs) s Q := by
  unfold flushReads
  refine wp_bind (wp_useAll ?_ ?_)
  · intro t ht
    refine hg.mem_iff.mpr ?_
    obtain ⟨r, hr, hx⟩ := List.mem_filterMap.mp ht
    have : t ∈ rs.flatMap RQ.toks := List.mem_flatMap.mpr ⟨r, (List.mem_filter.mp hr).1, by unfold RQ.toks; simp [hx]⟩
    simp [this]
  refine wp_bind (performRead_wp hg hi hw ht1 ht2 ?_)
  intro s1 Y hl hq hi1 hf hr hg1
  unfold Good at hg1
  refine wp_putAll (Z := s1.loc ++ (s1.file.toks ++ (Y ++ X))) (by permc hg1) ?_
  intro hd hp
  exact hk _ Y hl hq hi1 hf hr hp

/-! ### Reads -/

/-- The variables of a read when the request is complete. -/
def kR (own pack conv : Bool) : List Kind :=
  (if own then (if conv then [.mtype, .dtype] else []) ++ (if pack then [.ptype] else []) ++ [.xbuf] else []) ++ [.rreq, .lib]

theorem moves_wp {own pack conv fill : Bool} {sel : Tok} {g : RQ → M Unit} {s : St} {X : List Tok} {Q : Out Unit → St → Prop}
    (hs : sel.kind = .sel) (h : At s (sel :: X) (kR own pack conv))
    (hk : ∀ r s', r.WF → (conv = false → r.dtype = none) → s'.file = s.file → At s' (r.toks ++ X) [.lib] → wp (g r) s' Q) :
    wp (do
      let r ← move .rreq
      let x ← moveIf .xbuf
      let t ← moveIf .ptype
      let d ← moveIf .dtype
      let m ← moveIf .mtype
      g ⟨r, sel, x, t, d, m, fill⟩ : M Unit) s Q := by
  have c1 : ∀ own pack conv : Bool, .rreq ∈ kR own pack conv ∧
      (decide (.xbuf ∈ (kR own pack conv).erase .rreq) = own) ∧
      (decide (.ptype ∈ ((kR own pack conv).erase .rreq).erase .xbuf) = (own && pack)) ∧
      (decide (.dtype ∈ (((kR own pack conv).erase .rreq).erase .xbuf).erase .ptype) = (own && conv)) ∧
      (decide (.mtype ∈ ((((kR own pack conv).erase .rreq).erase .xbuf).erase .ptype).erase .dtype) = (own && conv)) ∧
      (((((kR own pack conv).erase .rreq).erase .xbuf).erase .ptype).erase .dtype).erase .mtype = [.lib] := by decide
  obtain ⟨e1, e2, e3, e4, e5, e6⟩ := c1 own pack conv
  refine wp_bind (wp_move h e1 ?_)
  intro r s1 kr f1 a1
  refine wp_bind (wp_moveIf a1 ?_)
  intro x s2 kx ix f2 a2
  refine wp_bind (wp_moveIf a2 ?_)
  intro t s3 kt it f3 a3
  refine wp_bind (wp_moveIf a3 ?_)
  intro d s4 kd id4 f4 a4
  refine wp_bind (wp_moveIf a4 ?_)
  intro m s5 km im f5 a5
  rw [e2] at ix
  rw [e3] at it
  rw [e4] at id4
  rw [e5] at im
  rw [e6] at a5
  refine hk _ s5 ⟨?_, ?_, ?_⟩ ?_ (by rw [f5, f4, f3, f2, f1]) ⟨?_, a5.2⟩
  · intro y hy
    unfold RQ.toks at hy
    simp only [List.mem_cons, List.mem_append, Option.mem_toList] at hy
    have : y.kind = .rreq ∨ y.kind = .sel ∨ y.kind = .xbuf ∨ y.kind = .ptype ∨ y.kind = .dtype ∨ y.kind = .mtype := by
      rcases hy with rfl | rfl | ((hy | hy) | hy) | hy
      · exact Or.inl kr
      · exact Or.inr (Or.inl hs)
      · exact Or.inr (Or.inr (Or.inl (kx y hy)))
      · exact Or.inr (Or.inr (Or.inr (Or.inl (kt y hy))))
      · exact Or.inr (Or.inr (Or.inr (Or.inr (Or.inl (kd y hy)))))
      · exact Or.inr (Or.inr (Or.inr (Or.inr (Or.inr (km y hy)))))
    simpa using this
  · simp only []
    rintro rfl
    have : own = false := by simpa using ix.symm
    rw [this] at it
    simpa using it
  · simp only []
    rw [id4, im]
  · intro hc
    rw [hc] at id4
    simpa using id4
  · have hp := a5.1
    unfold Good at hp ⊢
    unfold RQ.toks
    permc hp

/-- The file after a flush of data, if there is one. -/
def flushedIf (b more else_ : Bool) (f : File) : File :=
  if b then flushed f (f.dirty || decide ((takeMerged f).wq ≠ []) || more || else_) else f

theorem dsetiRead_wp {c : Conf} {p : RArgs} {sel : Tok} {s : St} {X : List Tok} {Q : Out Unit → St → Prop} (hs : sel.kind = .sel)
    (hg : Good s (sel :: X)) (hi : Inv s.file)
    (ht : ∀ s' Y, s'.loc = s.loc → s'.file.rq = s.file.rq → Inv s'.file → Frag Y → Good s' (Y ++ X) → Q .thrown s')
    (hk1 : p.empty = true → ∀ s', s'.loc = s.loc → s'.file = s.file → Good s' (sel :: X) → Q (.ok ()) s')
    (hk2 : p.empty = false → p.queue = true → ∀ r s', r.WF → (p.conv = false → r.dtype = none) → s'.loc = s.loc →
      s'.file = { s.file with rq := s.file.rq ++ [r] } → Good s' (r.toks ++ X) → Q (.ok ()) s')
    (hk3 : p.empty = false → p.queue = false → ∀ s' Y, s'.loc = s.loc → s'.file.rq = s.file.rq → Inv s'.file → Frag Y →
      Searched c p.env (flushedIf (p.coll && (s.file.pending || p.more || p.else_)) p.more p.else_ s.file) s'.file (Y.map (·.kind)) →
      Good s' (Y ++ X) → Q (.ok ()) s') :
    wp (dsetiRead c p sel) s Q := by
  unfold dsetiRead
  have h0 : In s.file.rq (sel :: (s.loc ++ X)) [] [] { s with loc := [] } := by
    refine ⟨⟨?_, rfl⟩, frag_nil, hi, rfl⟩
    unfold Good at hg ⊢
    permc hg
  have selF : Frag [sel] := by
    intro t h
    rw [List.mem_singleton] at h
    rw [h, hs]
    rfl
  have bad : ∀ s', Bad [.lib] s.file.rq (sel :: (s.loc ++ X)) s' → ∃ Z ks, At s' Z ks ∧ ∀ s'' W, W.map (·.kind) = left [.lib] ks →
      s''.loc = s.loc → s''.file = s'.file → s''.held.Perm (W ++ (s''.file.toks ++ Z)) → Q .thrown s'' := by
    rintro s' ⟨Y, ks, h1, h2⟩
    refine ⟨_, ks, h1.at_, ?_⟩
    intro s'' W hW hl hf hp
    refine ht s'' (W ++ (Y ++ [sel])) hl (by rw [hf]; exact h1.rq) (hf ▸ h1.inv) ((frag_kinds hW h2).append (h1.frag.append selF)) ?_
    unfold Good
    rw [hl]
    permc hp
  refine wp_frame ?_
  by_cases he : p.empty = true
  · rw [if_pos he]
    refine wp_pure ⟨_, [], h0.at_, ?_⟩
    intro s'' W hW hl hf hp
    have : W = [] := by simpa [left] using hW
    subst this
    refine hk1 he s'' hl hf ?_
    unfold Good
    rw [hl]
    permc hp
  · rw [if_neg he]
    have he' : p.empty = false := by simpa using he
    have c1 : ∀ own pack conv : Bool, chk [.lib] ([.call, .acq .lib, .call, .call, .mal .rreq, .call, .call] ++
        (if own then .acq .xbuf :: ((if pack then [.acq .ptype] else []) ++ (if conv then [.acq .dtype, .acq .mtype] else [])) else [])) []
        [(kR own pack conv, [])] = true ∧ chk [.lib] [.call] (kR own pack conv) [(kR own pack conv, [])] = true ∧
        (left [.lib] (kR own pack conv)).all fragile = true := by decide
    obtain ⟨c1, c2, c3⟩ := c1 p.own p.pack p.conv
    refine wp_bind (h0.run c1 bad ?_)
    intro e' he s1 Z hf1 hZ h1
    simp only [List.mem_singleton] at he
    subst he
    simp only [List.map_eq_nil_iff] at hZ
    subst hZ
    simp only [List.nil_append] at h1
    have hleft : left [Kind.lib] [Kind.lib] = [] := by decide
    simp only []
    by_cases hq : p.queue = true
    · rw [if_pos hq]
      refine moves_wp (g := fun r => setF fun f => { f with rq := f.rq ++ [r] }) hs h1.at_ ?_
      intro r s2 wf cv f2 a2
      refine wp_setF ⟨r.toks ++ (s.loc ++ X), [.lib], ?_, ?_⟩
      · refine ⟨?_, a2.2⟩
        exact a2.1
      · intro s'' W hW hl hf hp
        rw [hleft, List.map_eq_nil_iff] at hW
        subst hW
        refine hk2 he' hq r s'' wf cv hl ?_ ?_
        · rw [hf]
          simp only []
          rw [f2, hf1]
        · unfold Good
          rw [hl]
          permc hp
    · rw [if_neg hq]
      have hq' : p.queue = false := by simpa using hq
      refine wp_bind (h1.run c2 bad ?_)
      intro e' he s2 Z hf2 hZ h2
      simp only [List.mem_singleton] at he
      subst he
      simp only [List.map_eq_nil_iff] at hZ
      subst hZ
      simp only [List.nil_append] at h2
      refine wp_bind (wp_getF ?_)
      have hfile : s2.file = s.file := by rw [hf2, hf1]
      -- the end
      have tail : ∀ (s3 : St), In s.file.rq (sel :: (s.loc ++ X)) (kR p.own p.pack p.conv) [] s3 →
          s3.file = flushedIf (p.coll && (s.file.pending || p.more || p.else_)) p.more p.else_ s.file →
          wp (do
            let r ← move .rreq
            let x ← moveIf .xbuf
            let t ← moveIf .ptype
            let d ← moveIf .dtype
            let m ← moveIf .mtype
            flushReads c p.env [⟨r, sel, x, t, d, m, p.fill⟩] : M Unit) s3 fun o s' => ∃ Z ks, At s' Z ks ∧ ∀ s'' W, W.map (·.kind) = left [.lib] ks →
              s''.loc = s.loc → s''.file = s'.file → s''.held.Perm (W ++ (s''.file.toks ++ Z)) → Q o s'' := by
        intro s3 h3 hfl
        refine moves_wp (g := fun r => flushReads c p.env [r]) hs h3.at_ ?_
        intro r s4 wf cv f4 a4
        refine flushReads_wp (X := s.loc ++ X) ?_ (f4 ▸ h3.inv) ?_ ?_ ?_ ?_
        · simpa using a4.1
        · intro x hx
          rw [List.mem_singleton] at hx
          rw [hx]; exact wf
        · intro s5 Y l5 q5 i5 fr g5
          refine ⟨_, [.lib], ⟨g5, by rw [l5]; exact a4.2⟩, ?_⟩
          intro s'' W hW hl hf hp
          rw [hleft, List.map_eq_nil_iff] at hW
          subst hW
          refine ht s'' (Y ++ [r].flatMap RQ.toks) hl (by rw [hf, q5, f4]; exact h3.rq) (hf ▸ i5) (fr.append (by simpa using wf.frag)) ?_
          unfold Good
          rw [hl]
          permc hp
        · intro _ s5 Y l5 q5 i5 fr g5
          refine ⟨_, [.lib], ⟨g5, by rw [l5]; exact a4.2⟩, ?_⟩
          intro s'' W hW hl hf hp
          rw [hleft, List.map_eq_nil_iff] at hW
          subst hW
          refine ht s'' Y hl (by rw [hf, q5, f4]; exact h3.rq) (hf ▸ i5) fr ?_
          unfold Good
          rw [hl]
          permc hp
        · intro s5 Y l5 q5 i5 fr sr g5
          refine ⟨_, [.lib], ⟨g5, by rw [l5]; exact a4.2⟩, ?_⟩
          intro s'' W hW hl hf hp
          rw [hleft, List.map_eq_nil_iff] at hW
          subst hW
          refine hk3 he' hq' s'' Y hl (by rw [hf, q5, f4]; exact h3.rq) (hf ▸ i5) fr (by rw [hf, ← hfl, ← f4]; exact sr) ?_
          unfold Good
          rw [hl]
          permc hp
      simp only []
      rw [hfile]
      by_cases hb : (p.coll && (s.file.pending || p.more || p.else_)) = true
      · rw [if_pos hb]
        refine wp_bind (h2.fn (flushWrites_fn c p.more p.else_) (fin := [.lib]) c3 bad ?_)
        rintro _ s3 Z ⟨hL, r3⟩ h3
        simp only [List.map_eq_nil_iff] at hL
        subst hL
        refine tail s3 h3 ?_
        unfold flushedIf
        rw [if_pos hb, ← hfile]
        exact r3
      · rw [if_neg hb]
        refine tail s2 h2 ?_
        unfold flushedIf
        rw [if_neg hb]
        exact hfile

end Verif.Held
