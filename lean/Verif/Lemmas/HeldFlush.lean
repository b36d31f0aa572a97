import Verif.Lemmas.Held

/-
What flushes of data and metadata and updates of the index lose.
-/

namespace Verif.Held

theorem takeMerged_perm (f : File) : (takeMerged f).toks.Perm f.toks := by
  have h := merged_perm (fun m => decide (0 < m.n)) f.mq
  have e : f.mq.filter (fun m => decide (¬ 0 < m.n)) = f.mq.filter (fun m => !decide (0 < m.n)) := by
    congr 1; funext m; by_cases hm : m.n = 0 <;> simp [hm]; omega
  unfold File.toks takeMerged
  rw [List.perm_iff_count] at h ⊢
  intro a
  have := h a
  simp only [List.count_append, List.flatMap_append, List.flatMap_map, e] at this ⊢
  omega

theorem takeMerged_inv {f : File} (h : Inv f) : Inv (takeMerged f) := by
  refine ⟨?_, ?_, h.idx, (List.filter_sublist.map _).nodup h.dids, ?_, h.kinds.2.1, ?_, h.kinds.2.2.2⟩
  · intro w hw
    rcases List.mem_append.mp hw with h1 | h1
    · exact h.wq w h1
    · obtain ⟨m, hm, rfl⟩ := List.mem_map.mp h1
      exact (h.mq m (List.mem_filter.mp hm).1).2
  · intro m hm
    exact h.mq m (List.mem_filter.mp hm).1
  · intro w hw
    rcases List.mem_append.mp hw with h1 | h1
    · exact h.kinds.1 w h1
    · obtain ⟨m, hm, rfl⟩ := List.mem_map.mp h1
      exact h.kinds.2.2.1 m (List.mem_filter.mp hm).1
  · intro m hm
    exact h.kinds.2.2.1 m (List.mem_filter.mp hm).1

/-- The file after a flush of data. -/
def flushed (f : File) (d : Bool) : File :=
  { takeMerged f with wq := [], done := f.done ++ (takeMerged f).wq, dirty := d }

def finW : List Kind := [.wtype, .ldsid, .dcpl, .dxpl, .mlens, .moffs]

theorem flushWrites_fn (c : Conf) (more else_ : Bool) :
    Fn (flushWrites c more else_) fun f _ f' L => L = [] ∧
      f' = flushed f (f.dirty || decide ((takeMerged f).wq ≠ []) || more || else_) := by
  unfold flushWrites
  refine Fn.frame ?_
  intro s X h0
  refine wp_bind (h0.setF (Y' := []) (q' := s.file.rq) ?_ frag_nil (takeMerged_inv h0.inv) rfl ?_)
  · exact (takeMerged_perm _).symm.append_right _
  intro s1 hf1 h1
  refine wp_bind (wp_getF ?_)
  simp only []
  have fin_ : ∀ (b p : Bool), chk finW ((if b then [] else .mal .mlens :: .mal .moffs :: (if p then [] else [.acq .wtype])) ++ [.call]) []
      [(if b then [] else if p then [.moffs, .mlens] else [.wtype, .moffs, .mlens], [])] = true := by decide
  have g1 := fin_ (decide (s1.file.wq = [])) c.passthru
  simp only [decide_eq_true_eq] at g1
  refine wp_bind (h1.run g1 (fun _ h => h) ?_)
  intro e he s2 Z hf2 hZ h2
  simp only [List.mem_singleton] at he
  subst he
  simp only [List.map_eq_nil_iff] at hZ
  subst hZ
  simp only [List.nil_append] at h2
  rw [← hf2] at h2 ⊢
  by_cases hc : s2.file.wq ≠ [] ∨ more = true
  · rw [if_pos hc]
    refine wp_bind (wp_pick fun undef => ?_)
    refine wp_bind (wp_pick fun again => ?_)
    have fin2 : ∀ (b p undef again : Bool), chk finW ([.acq .ldsid, .acq .dcpl, .acq .dxpl, .acq .ldp] ++ reopen .ldp undef ++
        (if undef && again then [.relIf .wtype] else []) ++ (if p then [.call, .call, .mal .mbuff, .acqU .mspace, .call, .rel .mbuff, .relIf .mspace] else [.call]) ++ [.call, .rel .ldp]) (if b then [] else if p then [.moffs, .mlens] else [.wtype, .moffs, .mlens])
        [(.dxpl :: .dcpl :: .ldsid :: (if b then [] else if p then [.moffs, .mlens] else if undef && again then [.moffs, .mlens] else [.wtype, .moffs, .mlens]), [])] = true := by decide
    have g2 := fin2 (decide (s2.file.wq = [])) c.passthru undef again
    simp only [decide_eq_true_eq] at g2
    refine wp_bind (h2.run g2 (fun _ h => h) ?_)
    intro e he s3 Z hf3 hZ h3
    simp only [List.mem_singleton] at he
    subst he
    simp only [List.map_eq_nil_iff] at hZ
    subst hZ
    simp only [List.nil_append] at h3
    refine h3.putSet (Y' := []) (q' := s.file.rq) ?_ frag_nil ⟨by simp, h3.inv.mq, h3.inv.idx, h3.inv.dids, by simp, ?_, h3.inv.kinds.2.2⟩ h3.rq ?_
    · have hq := queue_perm s3.file.wq
      rw [← hf3]
      unfold File.toks
      rw [List.perm_iff_count] at hq ⊢
      intro a
      have := hq a
      simp only [List.count_append, List.map_append, List.flatMap_nil, List.count_nil] at this ⊢
      omega
    · intro w hw
      rcases List.mem_append.mp hw with hw | hw
      · exact h3.inv.kinds.2.1 w hw
      · exact h3.inv.kinds.1 w hw
    · intro s4 hf4 h4
      refine ⟨_, _, h4, ?_, ?_, ?_⟩
      · split
        · decide
        · split
          · decide
          · split <;> decide
      · split
        · decide
        · split
          · decide
          · split <;> decide
      · have e : (s.file.dirty || decide ((takeMerged s.file).wq ≠ []) || more || else_) = true := by
          rw [hf2, hf1] at hc
          rcases hc with hc | hc
          · simp [hc]
          · simp [hc]
        rw [e, hf4, hf3, hf2, hf1]
        rfl
  · rw [if_neg hc]
    simp only [ne_eq, not_or, Decidable.not_not] at hc
    have hw : (takeMerged s.file).wq = [] := by rw [← hf1, ← hf2]; exact hc.1
    rw [if_pos hc.1] at h2
    by_cases he : else_ = true
    · rw [if_pos he]
      refine h2.setF (Y' := []) (q' := s.file.rq) (List.Perm.refl _) frag_nil ⟨h2.inv.wq, h2.inv.mq, h2.inv.idx, h2.inv.dids, h2.inv.kinds⟩ h2.rq ?_
      intro s3 hf3 h3
      refine ⟨_, _, h3, by decide, by decide, ?_⟩
      rw [hf3, hf2, hf1, he]
      simp [flushed, hw]
      rfl
    · rw [if_neg he]
      refine wp_pure ⟨_, _, h2, by decide, by decide, ?_⟩
      have e : (s.file.dirty || decide ((takeMerged s.file).wq ≠ []) || more || else_) = s.file.dirty := by
        have h1 : more = false := by simpa using hc.2
        have h2 : else_ = false := by simpa using he
        simp [hw, h1, h2]
      rw [e, hf2, hf1]
      simp [flushed, hw]
      cases hs : s.file
      rw [hs] at hw
      simp [takeMerged] at hw ⊢
      exact hw

/-- The file after a flush of metadata. -/
def described (f : File) (n : Nat) : File :=
  { f with done := [], wq := [], keys := [], dirty := false, valid := false,
           md := f.md ++ if 0 < n + (f.done.length + f.wq.length) then [n + (f.done.length + f.wq.length)] else [] }

def finM : List Kind := [.offs, .lens, .mdoffs, .mdsid, .dcpl, .dxpl, .mmtype]

theorem metaflush_fn (c : Conf) (n : Nat) :
    Fn (metaflush c n) fun f _ f' L => L = (f.wq.flatMap (·.bufs)).map (·.kind) ∧ f' = described f n := by
  unfold metaflush
  refine Fn.frame ?_
  intro s X h0
  refine wp_bind (wp_getF ?_)
  simp only []
  have fin1 : ∀ (r t : Bool), chk finM ([.mal .offs, .mal .lens] ++ (if r then [.mal .mdoffs] else []) ++ (if t then [.acq .mmtype] else []) ++ [.call]) []
      [((if t then [.mmtype] else []) ++ (if r then [.mdoffs] else []) ++ [.lens, .offs], [])] = true := by decide
  refine wp_bind (h0.run (fin1 c.rank0 (!c.passthru && (c.rank0 || decide (s.file.done.length + s.file.wq.length ≠ 0)))) (fun _ h => h) ?_)
  intro e he s1 Z hf1 hZ h1
  simp only [List.mem_singleton] at he
  subst he
  simp only [List.map_eq_nil_iff] at hZ
  subst hZ
  simp only [List.nil_append] at h1
  generalize (!c.passthru && (c.rank0 || decide (s.file.done.length + s.file.wq.length ≠ 0))) = tt at h1
  -- the end
  have tail : ∀ (s2 : St) (ks : List Kind), In s.file.rq X ks [] s2 → (left finM ks) = [] →
      s2.file = { s.file with md := (described s.file n).md } →
      wp (do
        putAll (s.file.done.map (·.req) ++ s.file.wq.map (·.req))
        putAll s.file.keys
        setF fun f => { f with done := [], wq := [], keys := [], dirty := false, valid := false } : M Unit) s2 fun o s' => match o with
      | .ub => False
      | .thrown => Bad finM s.file.rq X s'
      | .ok _ => ∃ Y ks, In s.file.rq X ks Y s' ∧ (left finM ks).all fragile = true ∧
        left finM ks ++ Y.map (·.kind) = (s.file.wq.flatMap (·.bufs)).map (·.kind) ∧ s'.file = described s.file n := by
    intro s2 ks h2 hl hf2
    have hh := h2.held
    have hq := queue_perm s.file.wq
    refine wp_bind (wp_putAll (Z := s.file.keys ++ (s2.loc ++ ((described s.file n).toks ++ (s.file.wq.flatMap (·.bufs) ++ X)))) ?_ ?_)
    · rw [hf2] at hh
      unfold described File.toks at *
      rw [List.perm_iff_count] at hh hq ⊢
      intro a
      have h1 := hh a
      have h2 := hq a
      simp only [List.count_append, List.flatMap_nil, List.count_nil, List.map_nil] at h1 h2 ⊢
      omega
    intro hd hp
    refine wp_bind (wp_putAll hp ?_)
    intro hd' hp'
    refine wp_setF ?_
    refine ⟨s.file.wq.flatMap (·.bufs), ks, h2.mk' rfl ?_ ?_ ?_ ?_, by rw [hl]; rfl, by rw [hl]; rfl, ?_⟩
    · have e : ({ s2.file with done := [], wq := [], keys := [], dirty := false, valid := false } : File) = described s.file n := by
        rw [hf2]; rfl
      rw [e]
      exact hp'
    · intro t ht
      obtain ⟨w, hw, hb⟩ := List.mem_flatMap.mp ht
      rw [h0.inv.wq w hw t hb]
      rfl
    · exact ⟨by simp, h2.inv.mq, h2.inv.idx, h2.inv.dids, by simp, by simp, h2.inv.kinds.2.2.1, by simp⟩
    · exact h2.rq
    · rw [hf2]; rfl
  by_cases hc : 0 < n + (s.file.done.length + s.file.wq.length)
  · rw [if_pos hc]
    have fin2 : ∀ (r t : Bool), chk finM [.acq .mdsid, .acq .dcpl, .acq .dxpl, .acq .mdp] ((if t then [.mmtype] else []) ++ (if r then [.mdoffs] else []) ++ [.lens, .offs])
        [([.mdp, .dxpl, .dcpl, .mdsid] ++ ((if t then [.mmtype] else []) ++ (if r then [.mdoffs] else []) ++ [.lens, .offs]), [])] = true := by decide
    refine wp_bind (h1.run (fin2 c.rank0 tt) (fun _ h => h) ?_)
    intro e he s2 Z hf2 hZ h2
    simp only [List.mem_singleton] at he
    subst he
    simp only [List.map_eq_nil_iff] at hZ
    subst hZ
    simp only [List.nil_append] at h2
    refine wp_bind (h2.setF (Y' := []) (q' := s.file.rq) (List.Perm.refl _) frag_nil ⟨h2.inv.wq, h2.inv.mq, h2.inv.idx, h2.inv.dids, h2.inv.kinds⟩ h2.rq ?_)
    intro s3 hf3 h3
    refine wp_bind (wp_pick fun undef => ?_)
    have fin3 : ∀ (r t p undef : Bool), chk finM (reopen .mdp undef ++ (if p then [.call, .call, .mal .mbuff, .acqU .mspace, .call, .rel .mbuff, .relIf .mspace] else [.call]) ++ [.call, .rel .mdp])
        ([.mdp, .dxpl, .dcpl, .mdsid] ++ ((if t then [.mmtype] else []) ++ (if r then [.mdoffs] else []) ++ [.lens, .offs]))
        [([.dxpl, .dcpl, .mdsid] ++ ((if t then [.mmtype] else []) ++ (if r then [.mdoffs] else []) ++ [.lens, .offs]), [])] = true := by decide
    refine wp_bind (h3.run (fin3 c.rank0 tt c.passthru undef) (fun _ h => h) ?_)
    intro e he s4 Z hf4 hZ h4
    simp only [List.mem_singleton] at he
    subst he
    simp only [List.map_eq_nil_iff] at hZ
    subst hZ
    simp only [List.nil_append] at h4
    refine wp_mono (tail s4 _ h4 ?_ ?_) (fun o s' h => by cases o <;> exact h)
    · have : ∀ r t : Bool, left finM ([.dxpl, .dcpl, .mdsid] ++ ((if t then [.mmtype] else []) ++ (if r then [.mdoffs] else []) ++ [.lens, .offs])) = [] := by decide
      exact this _ _
    · rw [hf4, hf3, hf2, hf1]
      unfold described
      rw [if_pos hc]
  · rw [if_neg hc]
    refine wp_mono (tail s1 _ h1 ?_ ?_) (fun o s' h => by cases o <;> exact h)
    · have : ∀ r t : Bool, left finM (((if t then [.mmtype] else []) ++ (if r then [.mdoffs] else []) ++ [.lens, .offs])) = [] := by decide
      exact this _ _
    · rw [hf1]
      unfold described
      rw [if_neg hc]
      simp

/-! ### The index -/

theorem entries_wp : ∀ {n : Nat} {q : List RQ} {X Y : List Tok} {ks : List Kind} {s : St} {Q : Out (List Tok) → St → Prop}, In q X ks Y s →
    .ent ∉ ks → (∀ ts s', ts.map (·.kind) = List.replicate n .ent → s'.file = s.file → In q X ks (ts ++ Y) s' → Q (.ok ts) s') →
    wp (entries n) s Q
  | 0, _, _, _, _, _, _, h, _, hq => wp_pure (hq [] _ rfl rfl h)
  | n + 1, q, X, Y, ks, s, Q, h, hk, hq => by
    have ha : arun [.mal .ent] ks = some [(false, .ent :: ks, [])] := by
      simp [arun, astep, abind, anext, hk, List.erase_of_not_mem hk]
    refine wp_bind (wp_mono (wp_run h.at_ ha) ?_)
    rintro o s1 ⟨e, he, rfl, hf, Z, hZ, hat⟩
    simp only [List.mem_singleton] at he
    subst he
    simp only [List.map_eq_nil_iff] at hZ
    subst hZ
    refine wp_bind (wp_move hat (by simp) ?_)
    intro t s2 ht hf2 hat2
    rw [List.erase_cons_head] at hat2
    have h2 : In q X ks (t :: Y) s2 := by
      refine ⟨hat2, ?_, by rw [hf2, hf]; exact h.inv, by rw [hf2, hf]; exact h.rq⟩
      intro x hx
      rcases List.mem_cons.mp hx with rfl | hx
      · rw [ht]; rfl
      · exact h.frag x hx
    refine wp_bind (entries_wp h2 hk ?_)
    intro ts s3 hts hf3 h3
    refine wp_pure (hq (t :: ts) s3 ?_ (by rw [hf3, hf2, hf]) ?_)
    · rw [List.map_cons, hts, ht, List.replicate_succ]
    · refine h3.mk' rfl ?_ ?_ h3.inv h3.rq
      · have hh := h3.held
        rw [List.perm_iff_count] at hh ⊢
        intro a
        have := hh a
        simp only [List.count_append, List.count_cons, List.cons_append] at this ⊢
        omega
      · intro x hx
        refine h3.frag x ?_
        simp only [List.cons_append, List.mem_cons, List.mem_append] at hx ⊢
        tauto

theorem parse_wp {c : Conf} {n : Nat} {q : List RQ} {X Y : List Tok} {ks : List Kind} {s : St} {Q : Out Unit → St → Prop} (h : In q X ks Y s)
    (hk : .ent ∉ ks) (hq : ∀ ts s', ts.length = (if c.compact then n else 0) → s'.file = { s.file with idx := s.file.idx ++ ts } →
      In q X ks Y s' → Q (.ok ()) s') : wp (parse c n) s Q := by
  unfold parse
  by_cases hc : c.compact = true
  · rw [if_pos hc]
    refine wp_bind (entries_wp h hk ?_)
    intro ts s1 hts hf h1
    refine h1.setF (Y' := Y) (q' := q) ?_ h.frag ?_ h1.rq ?_
    · unfold File.toks
      rw [List.perm_iff_count]
      intro a
      simp only [List.count_append]
      omega
    · refine ⟨h1.inv.wq, h1.inv.mq, ?_, h1.inv.dids, h1.inv.kinds⟩
      intro t ht
      rcases List.mem_append.mp ht with ht | ht
      · exact h1.inv.idx t ht
      · have : t.kind ∈ ts.map (·.kind) := List.mem_map.mpr ⟨t, ht, rfl⟩
        rw [hts] at this
        exact List.eq_of_mem_replicate this
    · intro s2 hf2 h2
      refine hq ts s2 ?_ (by rw [hf2, hf]) h2
      rw [if_pos hc]
      simpa using congrArg List.length hts
  · rw [if_neg hc]
    exact wp_pure (hq [] s (by rw [if_neg hc]; rfl) (by simp) h)

theorem clearIdx_wp {q : List RQ} {X Y : List Tok} {ks : List Kind} {s : St} {Q : Out Unit → St → Prop} (h : In q X ks Y s)
    (hq : ∀ s', s'.file = { s.file with idx := [] } → In q X ks (s.file.idx ++ Y) s' → Q (.ok ()) s') : wp clearIdx s Q := by
  refine h.setF (Y' := s.file.idx ++ Y) (q' := q) ?_ ?_ ⟨h.inv.wq, h.inv.mq, by simp, h.inv.dids, h.inv.kinds⟩ h.rq hq
  · unfold File.toks
    rw [List.perm_iff_count]
    intro a
    simp only [List.count_append, List.count_nil]
    omega
  · refine Frag.append ?_ h.frag
    intro t ht
    rw [h.inv.idx t ht]
    rfl

def finU : List Kind := [.mdsid, .mmsid, .buf]

theorem loadAll_wp (c : Conf) : ∀ (ns : List Nat) {q : List RQ} {X Y : List Tok} {ks : List Kind} {s : St} {Q : Out Unit → St → Prop},
    In q X ks Y s → ks ∈ [[], [.mmsid], [.mdsid], [.mdsid, .mmsid]] → (∀ s', Bad finU q X s' → Q .thrown s') →
    (∀ s' Z ks' ts, ks' ∈ [[], [.mmsid], [.mdsid], [.mdsid, .mmsid]] → s'.file = { s.file with idx := s.file.idx ++ ts } →
      ts.length = (if c.compact then ns.sum else 0) →
      Z.map (·.kind) = List.replicate (if .mdsid ∈ ks then ns.length else ns.length - 1) .mdsid → In q X ks' (Z ++ Y) s' → Q (.ok ()) s') →
    wp (loadAll c ns) s Q
  | [], q, X, Y, ks, s, Q, h, hk, ht, hq => wp_pure (hq s [] ks [] hk (by simp) (by simp) (by simp) h)
  | n :: ns, q, X, Y, ks, s, Q, h, hk, ht, hq => by
    have c1 : ∀ ks ∈ ([[], [.mmsid], [.mdsid], [.mdsid, .mmsid]] : List (List Kind)),
        chk finU [.acq .mdp, .acq .mdsid, .call, .mal .buf, .call, .call, .rel .mdp] ks
          [(.buf :: .mdsid :: ks.erase .mdsid, if .mdsid ∈ ks then [.mdsid] else [])] = true := by decide
    have c2 : ∀ ks ∈ ([[], [.mmsid], [.mdsid], [.mdsid, .mmsid]] : List (List Kind)),
        chk finU [.call, .rel .buf] (.buf :: .mdsid :: ks.erase .mdsid) [(.mdsid :: ks.erase .mdsid, [])] = true := by decide
    have c3 : ∀ ks ∈ ([[], [.mmsid], [.mdsid], [.mdsid, .mmsid]] : List (List Kind)),
        .ent ∉ (.buf :: .mdsid :: ks.erase .mdsid : List Kind) ∧
        (.mdsid :: ks.erase .mdsid : List Kind) ∈ ([[], [.mmsid], [.mdsid], [.mdsid, .mmsid]] : List (List Kind)) := by decide
    refine wp_bind (h.run (c1 ks hk) (fun s' hb => ht s' hb) ?_)
    intro e he s1 Z hf1 hZ h1
    simp only [List.mem_singleton] at he
    subst he
    refine wp_bind (parse_wp h1 (c3 ks hk).1 ?_)
    intro ts s2 hts hf2 h2
    refine wp_bind (h2.run (c2 ks hk) (fun s' hb => ht s' hb) ?_)
    intro e he s3 Z' hf3 hZ' h3
    simp only [List.mem_singleton] at he
    subst he
    simp only [List.map_eq_nil_iff] at hZ'
    subst hZ'
    simp only [List.nil_append] at h3
    refine loadAll_wp c ns h3 (c3 ks hk).2 ht ?_
    intro s4 W ks' ts' hk' hf4 hts' hW h4
    refine hq s4 (W ++ Z) ks' (ts ++ ts') hk' ?_ ?_ ?_ (by rw [List.append_assoc]; exact h4)
    · rw [hf4, hf3, hf2, hf1]
      simp
    · rw [List.length_append, hts, hts']
      split <;> simp
    · rw [List.map_append, hW, hZ, if_pos (by simp)]
      by_cases hm : Kind.mdsid ∈ ks
      · simp only [if_pos hm, List.length_cons]
        rw [List.replicate_succ']
      · simp only [if_neg hm, List.length_cons]
        simp

/-- What an update of the index loses. -/
def updateLoss (f : File) (n : Nat) : List Kind :=
  (if f.dirty then (f.wq.flatMap (·.bufs)).map (·.kind) else []) ++ List.replicate f.idx.length .ent ++
    List.replicate ((if f.dirty then described f n else f).md.length - 1) .mdsid

/-- The file after an update of the index whose entries are `ts`. -/
def updated (f : File) (n : Nat) (ts : List Tok) : File :=
  { (if f.dirty then described f n else f) with valid := true, idx := ts }

theorem metaupdate_fn (c : Conf) (n : Nat) : Fn (metaupdate c n) fun f _ f' L => L.Perm (updateLoss f n) ∧ ∃ ts,
    ts.length = (if c.compact then f'.md.sum else 0) ∧ f' = updated f n ts := by
  unfold metaupdate
  refine Fn.frame ?_
  intro s X h0
  have c1 : chk finU [.acqU .mmsid] [] [([.mmsid], []), ([], [])] = true := by decide
  refine wp_bind (h0.run c1 (fun _ h => h) ?_)
  intro e he s1 Z hf1 hZ h1
  have he2 : e.1 ∈ [[], [Kind.mmsid]] ∧ e.2 = [] := by
    simp only [List.mem_cons, List.not_mem_nil, or_false] at he
    rcases he with rfl | rfl <;> simp
  rw [he2.2, List.map_eq_nil_iff] at hZ
  subst hZ
  simp only [List.nil_append] at h1
  refine wp_bind (wp_getF ?_)
  have c2 : ∀ ks ∈ ([[], [.mmsid]] : List (List Kind)), (left finU ks).all fragile = true := by decide
  have c3 : ∀ ks ∈ ([[], [.mmsid]] : List (List Kind)), ks ∈ ([[], [.mmsid], [.mdsid], [.mdsid, .mmsid]] : List (List Kind)) ∧ .mdsid ∉ ks := by decide
  have c4 : ∀ ks ∈ ([[], [.mmsid], [.mdsid], [.mdsid, .mmsid]] : List (List Kind)), left finU ks = [] := by decide
  -- the end
  have tail : ∀ (s2 : St) (Y : List Tok), In s.file.rq X e.1 Y s2 → Y.map (·.kind) = (if s.file.dirty then (s.file.wq.flatMap (·.bufs)).map (·.kind) else []) →
      s2.file = (if s.file.dirty then described s.file n else s.file) →
      wp (do
        clearIdx
        let f ← getF
        loadAll c f.md
        setF fun f => { f with valid := true } : M Unit) s2 fun o s' => match o with
      | .ub => False
      | .thrown => Bad finU s.file.rq X s'
      | .ok _ => ∃ Y ks, In s.file.rq X ks Y s' ∧ (left finU ks).all fragile = true ∧
        (left finU ks ++ Y.map (·.kind)).Perm (updateLoss s.file n) ∧ ∃ ts,
    ts.length = (if c.compact then s'.file.md.sum else 0) ∧ s'.file = updated s.file n ts := by
    intro s2 Y h2 hY hf2
    refine wp_bind (clearIdx_wp h2 ?_)
    intro s3 hf3 h3
    refine wp_bind (wp_getF ?_)
    refine wp_bind (loadAll_wp c _ h3 (c3 _ he2.1).1 (fun _ h => h) ?_)
    intro s4 Z ks' ts hk' hf4 hts hZ h4
    refine h4.setF (Y' := Z ++ (s2.file.idx ++ Y)) (q' := s.file.rq) (List.Perm.refl _) h4.frag ⟨h4.inv.wq, h4.inv.mq, h4.inv.idx, h4.inv.dids, h4.inv.kinds⟩ h4.rq ?_
    intro s5 hf5 h5
    refine ⟨_, ks', h5, by rw [c4 _ hk']; rfl, ?_, ts, ?_, ?_⟩
    · rw [c4 _ hk', List.nil_append, List.map_append, List.map_append, hZ, hY, if_neg (c3 _ he2.1).2, hf3]
      have e1 : s2.file.idx.map (·.kind) = List.replicate s.file.idx.length .ent := by
        have e2 : s2.file.idx = s.file.idx := by rw [hf2]; split <;> rfl
        rw [e2]
        exact List.eq_replicate_iff.mpr ⟨by simp, by
          intro b hb
          obtain ⟨t, ht, rfl⟩ := List.mem_map.mp hb
          exact h0.inv.idx t ht⟩
      rw [e1]
      unfold updateLoss
      rw [List.perm_iff_count]
      intro a
      simp only [List.count_append, hf2]
      omega
    · rw [hts, hf5, hf4, hf3]
    · rw [hf5, hf4, hf3, hf2]
      unfold updated
      simp
  simp only []
  by_cases hd : s1.file.dirty = true
  · rw [if_pos hd]
    refine wp_bind (h1.fn (metaflush_fn c n) (fin := finU) (c2 _ he2.1) (fun _ h => h) ?_)
    rintro _ s2 Z ⟨hL, hf2⟩ h2
    refine wp_mono (tail s2 (Z ++ []) h2 ?_ ?_) (fun o s' h => by cases o <;> exact h)
    · rw [hf1] at hd hL
      rw [if_pos hd, List.append_nil]
      exact hL
    · rw [hf1] at hd hf2
      rw [if_pos hd]
      exact hf2
  · rw [if_neg hd]
    rw [hf1] at hd
    refine wp_mono (tail s1 [] h1 ?_ ?_) (fun o s' h => by cases o <;> exact h)
    · rw [if_neg hd]
      rfl
    · rw [if_neg hd]
      exact hf1

theorem metapart_fn (c : Conf) (m : Nat) : Fn (metapart c m) fun f _ f' L => L.Perm (.secs :: List.replicate f.idx.length .ent) ∧ ∃ ts,
    ts.length = (if c.compact then m else 0) ∧ f' = { f with idx := ts } := by
  unfold metapart
  refine Fn.frame ?_
  intro s X h0
  have c1 : chk finU [.acqU .mmsid] [] [([.mmsid], []), ([], [])] = true := by decide
  refine wp_bind (h0.run c1 (fun _ h => h) ?_)
  intro e he s1 Z hf1 hZ h1
  have he2 : e.1 ∈ [[], [Kind.mmsid]] ∧ e.2 = [] := by
    simp only [List.mem_cons, List.not_mem_nil, or_false] at he
    rcases he with rfl | rfl <;> simp
  rw [he2.2, List.map_eq_nil_iff] at hZ
  subst hZ
  simp only [List.nil_append] at h1
  refine wp_bind (clearIdx_wp h1 ?_)
  intro s2 hf2 h2
  have c2 : ∀ ks ∈ ([[], [.mmsid]] : List (List Kind)), chk finU [.acq .mdp, .acq .mdsid, .call, .mal .secs, .call, .call, .mal .buf, .call, .call, .rel .mdp] ks
      [(.buf :: .secs :: .mdsid :: ks, [])] = true := by decide
  have c3 : ∀ ks ∈ ([[], [.mmsid]] : List (List Kind)), .ent ∉ (.buf :: .secs :: .mdsid :: ks : List Kind) ∧
      chk finU [.call] (.buf :: .secs :: .mdsid :: ks) [(.buf :: .secs :: .mdsid :: ks, [])] = true ∧ left finU (.buf :: .secs :: .mdsid :: ks) = [.secs] := by decide
  refine wp_bind (h2.run (c2 _ he2.1) (fun _ h => h) ?_)
  intro e' he s3 Z hf3 hZ h3
  simp only [List.mem_singleton] at he
  subst he
  simp only [List.map_eq_nil_iff] at hZ
  subst hZ
  simp only [List.nil_append] at h3
  refine wp_bind (parse_wp h3 (c3 _ he2.1).1 ?_)
  intro ts s4 hts hf4 h4
  refine h4.run (c3 _ he2.1).2.1 (fun _ h => h) ?_
  intro e' he s5 Z hf5 hZ h5
  simp only [List.mem_singleton] at he
  subst he
  simp only [List.map_eq_nil_iff] at hZ
  subst hZ
  simp only [List.nil_append] at h5
  have c4 := (c3 _ he2.1).2.2
  unfold finU at c4
  refine ⟨_, _, h5, by rw [c4]; rfl, ?_, ts, hts, ?_⟩
  · rw [c4, List.append_nil]
    have e1 : s1.file.idx.map (·.kind) = List.replicate s.file.idx.length .ent := by
      rw [hf1]
      exact List.eq_replicate_iff.mpr ⟨by simp, by
        intro b hb
        obtain ⟨t, ht, rfl⟩ := List.mem_map.mp hb
        exact h0.inv.idx t ht⟩
    rw [e1]
    rfl
  · rw [hf5, hf4, hf3, hf2, hf1]
    simp

theorem Fn.pure {α : Type} (a : α) : Fn (Pure.pure a : M α) fun f b f' L => b = a ∧ f' = f ∧ L = [] := by
  intro s X hg hi
  exact wp_pure ⟨rfl, rfl, hi, [], hg, frag_nil, rfl, rfl, rfl⟩

theorem Fn.bind {α β : Type} {m : M α} {g : α → M β} {R : File → α → File → List Kind → Prop} {R' : File → α → File → β → File → List Kind → Prop}
    (hm : Fn m R) (hg : ∀ a f0 s X, Good s X → Inv s.file → (∃ L, R f0 a s.file L) → wp (g a) s fun o s' => match o with
      | .ub => False
      | .thrown => s'.loc = s.loc ∧ s'.file.rq = s.file.rq ∧ Inv s'.file ∧ ∃ Y, Good s' (Y ++ X) ∧ Frag Y
      | .ok b => s'.loc = s.loc ∧ s'.file.rq = s.file.rq ∧ Inv s'.file ∧
          ∃ Y, Good s' (Y ++ X) ∧ Frag Y ∧ R' f0 a s.file b s'.file (Y.map (·.kind))) :
    Fn (m >>= g) fun f b f' L => ∃ a f1 L1 L2, R f a f1 L1 ∧ R' f a f1 b f' L2 ∧ L = L2 ++ L1 := by
  intro s X h hi
  refine wp_bind (wp_mono (hm s X h hi) ?_)
  intro o s1 ho
  cases o with
  | ub => exact ho.elim
  | thrown => exact ho
  | ok a =>
    obtain ⟨l1, q1, i1, Y1, g1, f1, r1⟩ := ho
    refine wp_mono (hg a s.file s1 _ g1 i1 ⟨_, r1⟩) ?_
    intro o s2 ho
    cases o with
    | ub => exact ho.elim
    | thrown =>
      obtain ⟨l2, q2, i2, Y2, g2, f2⟩ := ho
      exact ⟨l2.trans l1, q2.trans q1, i2, Y2 ++ Y1, by rw [List.append_assoc]; exact g2, f2.append f1⟩
    | ok b =>
      obtain ⟨l2, q2, i2, Y2, g2, f2, r2⟩ := ho
      exact ⟨l2.trans l1, q2.trans q1, i2, Y2 ++ Y1, by rw [List.append_assoc]; exact g2, f2.append f1, a, s1.file, _, _, r1, r2,
        by rw [List.map_append]⟩

theorem Fn.seq {α β : Type} {m : M α} {g : α → M β} {R : File → α → File → List Kind → Prop} {R' : File → β → File → List Kind → Prop}
    (hm : Fn m R) (hg : ∀ a, Fn (g a) R') : Fn (m >>= g) fun f b f' L => ∃ a f1 L1 L2, R f a f1 L1 ∧ R' f1 b f' L2 ∧ L = L2 ++ L1 :=
  hm.bind (R' := fun _ _ f1 b f' L => R' f1 b f' L) (fun a _ s X h hi _ => hg a s X h hi)

theorem Fn.weaken {α : Type} {m : M α} {R R' : File → α → File → List Kind → Prop} (hm : Fn m R)
    (h : ∀ f a f' L, R f a f' L → R' f a f' L) : Fn m R' := by
  intro s X hg hi
  refine wp_mono (hm s X hg hi) ?_
  intro o s' ho
  cases o with
  | ub => exact ho
  | thrown => exact ho
  | ok a =>
    obtain ⟨a1, a2, a3, Y, a4, a5, a6⟩ := ho
    exact ⟨a1, a2, a3, Y, a4, a5, h _ _ _ _ a6⟩

/-- A choice by the fields of the file object. -/
theorem Fn.get {α : Type} {g : File → M α} {R : File → α → File → List Kind → Prop}
    (h : ∀ f, Fn (g f) fun f0 a f' L => f0 = f → R f0 a f' L) : Fn (getF >>= g) R := by
  intro s X hg hi
  refine wp_bind (wp_getF ?_)
  refine wp_mono (h s.file s X hg hi) ?_
  intro o s' ho
  cases o with
  | ub => exact ho
  | thrown => exact ho
  | ok a =>
    obtain ⟨a1, a2, a3, Y, a4, a5, a6⟩ := ho
    exact ⟨a1, a2, a3, Y, a4, a5, a6 rfl⟩

theorem metaparts_fn (c : Conf) : ∀ ms : List Nat, Fn (metaparts c ms) fun f _ f' L => ∃ k ts,
    L.Perm (List.replicate ms.length .secs ++ List.replicate k .ent) ∧ f' = { f with idx := ts }
  | [] => (Fn.pure ()).weaken (by
      rintro f _ f' L ⟨_, rfl, rfl⟩
      exact ⟨0, f'.idx, by simp, rfl⟩)
  | m :: ms => by
    refine ((metapart_fn c m).bind (R' := fun _ _ f _ f' L => ∃ k ts,
      L.Perm (List.replicate ms.length .secs ++ List.replicate k .ent) ∧ f' = { f with idx := ts })
      (fun a f0 s X hg hi _ => metaparts_fn c ms s X hg hi)).weaken ?_
    rintro f _ f' L ⟨_, f1, L1, L2, ⟨p1, ts, _, rfl⟩, ⟨k, ts', p2, rfl⟩, rfl⟩
    refine ⟨k + f.idx.length, ts', ?_, rfl⟩
    rw [List.perm_iff_count] at p1 p2 ⊢
    intro a
    have h1 := p1 a
    have h2 := p2 a
    rw [List.replicate_add, List.length_cons, List.replicate_succ]
    simp only [List.count_append, List.count_cons, List.cons_append] at h1 h2 ⊢
    omega

/-- The file after the metadata has been flushed if there is new one. -/
def saved (f : File) (n : Nat) : File := if f.dirty then described f n else f

/-- What a search does to the file and loses. -/
def Searched (c : Conf) (e : Env) (f f' : File) (L : List Kind) : Prop :=
  if c.limited then
    ∃ k ts, f' = { saved f e.n with idx := ts } ∧
      L.Perm ((if f.dirty then (f.wq.flatMap (·.bufs)).map (·.kind) else []) ++ List.replicate e.parts.length .secs ++ List.replicate k .ent)
  else if (saved f e.n).valid then f' = saved f e.n ∧ L = []
  else ∃ ts, f' = { saved f e.n with valid := true, idx := ts } ∧ ts.length = (if c.compact then f'.md.sum else 0) ∧
    L.Perm ((if f.dirty then (f.wq.flatMap (·.bufs)).map (·.kind) else []) ++ List.replicate f.idx.length .ent ++ List.replicate (f'.md.length - 1) .mdsid)

theorem search_fn (c : Conf) (e : Env) : Fn (search c e) fun f _ f' L => Searched c e f f' L := by
  unfold search
  refine Fn.get fun f => ?_
  -- the end, after the metadata has been flushed
  have tail : Fn (if c.limited = true then metaparts c e.parts else do
      let f ← getF
      if f.valid = true then Pure.pure () else metaupdate c e.n : M Unit) fun f0 _ f' L => f0.dirty = false →
        if c.limited then ∃ k ts, f' = { f0 with idx := ts } ∧ L.Perm (List.replicate e.parts.length .secs ++ List.replicate k .ent)
        else if f0.valid then f' = f0 ∧ L = []
        else ∃ ts, f' = { f0 with valid := true, idx := ts } ∧ ts.length = (if c.compact then f'.md.sum else 0) ∧
          L.Perm (List.replicate f0.idx.length .ent ++ List.replicate (f'.md.length - 1) .mdsid) := by
    by_cases hl : c.limited = true
    · simp only [if_pos hl]
      refine (metaparts_fn c e.parts).weaken ?_
      rintro f0 _ f' L ⟨k, ts, p, rfl⟩ _
      exact ⟨k, ts, rfl, p⟩
    · simp only [if_neg hl]
      refine Fn.get fun g => ?_
      by_cases hv : g.valid = true
      · simp only [if_pos hv]
        refine (Fn.pure ()).weaken ?_
        rintro f0 _ f' L ⟨_, rfl, rfl⟩ rfl _
        rw [if_pos hv]
        exact ⟨rfl, rfl⟩
      · simp only [if_neg hv]
        refine (metaupdate_fn c e.n).weaken ?_
        rintro f0 _ f' L ⟨p, ts, hts, hf⟩ rfl hd
        rw [if_neg hv]
        have e1 : updated f0 e.n ts = { f0 with valid := true, idx := ts } := by
          unfold updated
          rw [if_neg (by rw [hd]; simp)]
        rw [e1] at hf
        refine ⟨ts, hf, hts, ?_⟩
        unfold updateLoss at p
        rw [if_neg (by rw [hd]; simp), if_neg (by rw [hd]; simp), List.nil_append] at p
        rw [hf]
        exact p
  by_cases hd : f.dirty = true
  · simp only [if_pos hd]
    refine ((metaflush_fn c e.n).seq (fun _ => tail)).weaken ?_
    rintro f0 _ f' L ⟨_, f1, L1, L2, ⟨rfl, rfl⟩, r2, rfl⟩ rfl
    have r := r2 rfl
    have e1 : saved f0 e.n = described f0 e.n := by unfold saved; rw [if_pos hd]
    unfold Searched
    rw [e1, if_pos hd]
    have hv : (described f0 e.n).valid = false := rfl
    by_cases hl : c.limited = true
    · rw [if_pos hl] at r ⊢
      obtain ⟨k, ts, rfl, p⟩ := r
      refine ⟨k, ts, rfl, ?_⟩
      rw [List.perm_iff_count] at p ⊢
      intro a
      have := p a
      simp only [List.count_append] at this ⊢
      omega
    · rw [if_neg hl] at r ⊢
      rw [if_neg (by rw [hv]; simp)] at r ⊢
      obtain ⟨ts, h1, h2, p⟩ := r
      refine ⟨ts, h1, h2, ?_⟩
      rw [List.perm_iff_count] at p ⊢
      intro a
      have := p a
      have e2 : (described f0 e.n).idx = f0.idx := rfl
      rw [e2] at this
      simp only [List.count_append] at this ⊢
      omega
  · simp only [if_neg hd]
    refine tail.weaken ?_
    rintro f0 _ f' L r rfl
    have e1 : saved f0 e.n = f0 := by unfold saved; rw [if_neg hd]
    unfold Searched
    rw [e1, if_neg hd]
    simp only [List.nil_append]
    exact r (by simpa using hd)

end Verif.Held
