import Verif.Lemmas.HeldCalls

/-
What writes lose.
-/

namespace Verif.Held

/-- A write joins the merged request of its dataset. -/
def joined (did : Nat) (x : Option Tok) (m : MQ) : MQ :=
  if m.did = did then { m with n := m.n + 1, w := { m.w with bufs := m.w.bufs ++ x.toList } } else m

theorem joined_did (did : Nat) (x : Option Tok) (m : MQ) : (joined did x m).did = m.did := by
  unfold joined; split <;> rfl

theorem joined_perm {did : Nat} {x : Option Tok} : ∀ {l : List MQ}, (l.map (·.did)).Nodup → (∃ m ∈ l, m.did = did) →
    ((l.map (joined did x)).flatMap (fun m => m.w.req :: m.w.bufs)).Perm (x.toList ++ l.flatMap (fun m => m.w.req :: m.w.bufs))
  | [], _, h => by obtain ⟨m, hm, _⟩ := h; cases hm
  | m :: l, nd, h => by
    rw [List.map_cons, List.nodup_cons] at nd
    rw [List.map_cons, List.flatMap_cons, List.flatMap_cons]
    by_cases hm : m.did = did
    · have e : l.map (joined did x) = l := by
        have : l.map (joined did x) = l.map id := by
          refine List.map_congr_left ?_
          intro y hy
          unfold joined
          rw [if_neg]
          · rfl
          · intro hd
            exact nd.1 (List.mem_map.mpr ⟨y, hy, by rw [hd, hm]⟩)
        simpa using this
      rw [e]
      unfold joined
      rw [if_pos hm]
      rw [List.perm_iff_count]
      intro a
      simp only [List.count_append, List.count_cons, List.cons_append]
      omega
    · obtain ⟨y, hy, hd⟩ := h
      have ih := joined_perm (x := x) nd.2 ⟨y, by
        rcases List.mem_cons.mp hy with rfl | h'
        · exact absurd hd hm
        · exact h', hd⟩
      have e : joined did x m = m := by unfold joined; rw [if_neg hm]
      rw [e]
      permc ih

/-- The variables of a write when its data is in its buffer. -/
def kW (req own pack filter : Bool) : List Kind :=
  (if filter then .xbuf :: (if own && pack then [.ptype] else []) else if own then (if pack then [.ptype] else []) ++ [.xbuf] else []) ++
    (if req then [.wreq] else []) ++ [.lib]

def finD : List Kind := [.ptype, .lib]

/-- What a write leaves as it is. -/
def Kept (f f' : File) : Prop :=
  f'.done = f.done ∧ f'.md = f.md ∧ f'.dirty = f.dirty ∧ f'.valid = f.valid ∧ f'.idx = f.idx ∧
    ((∀ m ∈ f.mq, 0 < m.n) → ∀ m ∈ f'.mq, 0 < m.n)

/-- What a write loses. -/
def writeLoss (c : Conf) (p : WArgs) : List Kind := if !p.empty && (c.merge && c.req) then [.wreq] else []

theorem append_wp {req own pack filter : Bool} {did : Nat} {q : List RQ} {X Y : List Tok} {s : St} {Q : Out Unit → St → Prop}
    (h : In q X (kW req own pack filter) Y s) (ht : ∀ s', Bad finD q X s' → Q .thrown s')
    (hk : ∀ s', Kept s.file s'.file → In q X ((kW req own pack filter).erase .xbuf) Y s' → Q (.ok ()) s') : wp (append did) s Q := by
  have c1 : ∀ req own pack filter : Bool, chk finD [.acq .mreq] (kW req own pack filter) [(.mreq :: kW req own pack filter, [])] = true ∧
      chk finD [.call] (kW req own pack filter) [(kW req own pack filter, [])] = true := by decide
  obtain ⟨c1, c2⟩ := c1 req own pack filter
  -- the end, when there is a merged request of the dataset
  have tail : ∀ s1, In q X (kW req own pack filter) Y s1 → (∃ m ∈ s1.file.mq, m.did = did) →
      (s1.file.done = s.file.done ∧ s1.file.md = s.file.md ∧ s1.file.dirty = s.file.dirty ∧ s1.file.valid = s.file.valid ∧ s1.file.idx = s.file.idx ∧
        ((∀ m ∈ s.file.mq, 0 < m.n) → ∀ m ∈ s1.file.mq, m.did ≠ did → 0 < m.n)) →
      wp (do
        run [.call]
        let x ← moveIf .xbuf
        setF fun f => { f with mq := f.mq.map (joined did x) } : M Unit) s1 Q := by
    intro s1 h1 hex hkp
    refine wp_bind (h1.run c2 ht ?_)
    intro e' he s2 Z hf2 hZ h2
    simp only [List.mem_singleton] at he
    subst he
    simp only [List.map_eq_nil_iff] at hZ
    subst hZ
    simp only [List.nil_append] at h2
    refine wp_bind (wp_moveIf h2.at_ ?_)
    intro x s3 kx ix f3 a3
    have hx : Frag x.toList := by
      intro t h
      rw [Option.mem_toList] at h
      rw [kx t h]
      rfl
    have h3 : In q X ((kW req own pack filter).erase .xbuf) (x.toList ++ Y) s3 :=
      ⟨by rw [List.append_assoc]; exact a3, hx.append h2.frag, f3 ▸ h2.inv, by rw [f3]; exact h2.rq⟩
    have fs : s3.file = s1.file := by rw [f3, hf2]
    refine h3.setF (Y' := Y) (q' := q) ?_ h2.frag ?_ h3.rq ?_
    · have hp := joined_perm (x := x) (did := did) (l := s3.file.mq) h3.inv.dids (by rw [fs]; exact hex)
      unfold File.toks
      rw [List.perm_iff_count] at hp ⊢
      intro a
      have := hp a
      simp only [List.count_append] at this ⊢
      omega
    · refine ⟨h3.inv.wq, ?_, h3.inv.idx, ?_, h3.inv.kinds.1, h3.inv.kinds.2.1, ?_, h3.inv.kinds.2.2.2⟩
      · intro m hm
        obtain ⟨m0, h0, rfl⟩ := List.mem_map.mp hm
        obtain ⟨i1, i2⟩ := h3.inv.mq m0 h0
        unfold joined
        split
        · refine ⟨i1, ?_⟩
          intro b hb
          rcases List.mem_append.mp hb with hb | hb
          · exact i2 b hb
          · rw [Option.mem_toList] at hb
            exact kx b hb
        · exact ⟨i1, i2⟩
      · simp only [List.map_map]
        have : ((fun m : MQ => m.did) ∘ joined did x) = fun m => m.did := by
          funext m
          exact joined_did did x m
        rw [this]
        exact h3.inv.dids
      · intro m hm
        obtain ⟨m0, h0, rfl⟩ := List.mem_map.mp hm
        have := h3.inv.kinds.2.2.1 m0 h0
        unfold joined
        split <;> exact this
    · intro s4 hf4 h4
      refine hk s4 ?_ h4
      obtain ⟨k1, k2, k3, k4, k5, k6⟩ := hkp
      unfold Kept
      rw [hf4]
      simp only []
      rw [fs]
      refine ⟨k1, k2, k3, k4, k5, ?_⟩
      intro hpos m hm
      obtain ⟨m0, h0, rfl⟩ := List.mem_map.mp hm
      by_cases hd : m0.did = did
      · unfold joined
        rw [if_pos hd]
        exact Nat.succ_pos _
      · have e : joined did x m0 = m0 := by unfold joined; rw [if_neg hd]
        rw [e]
        exact k6 hpos m0 h0 hd
  unfold append
  refine wp_bind (wp_getF ?_)
  simp only []
  by_cases ha : (s.file.mq.any fun m => decide (m.did = did)) = true
  · rw [if_pos ha]
    refine tail s h ?_ ⟨rfl, rfl, rfl, rfl, rfl, fun hp m hm _ => hp m hm⟩
    simpa using ha
  · rw [if_neg ha]
    refine wp_bind (h.run c1 ht ?_)
    intro e' he s1 Z hf1 hZ h1
    simp only [List.mem_singleton] at he
    subst he
    simp only [List.map_eq_nil_iff] at hZ
    subst hZ
    simp only [List.nil_append] at h1
    refine wp_bind (wp_move h1.at_ (by simp) ?_)
    intro m s2 km f2 a2
    rw [List.erase_cons_head] at a2
    have fs : s2.file = s.file := by rw [f2, hf1]
    have h2 : In q X (kW req own pack filter) (m :: Y) s2 := by
      refine ⟨a2, ?_, by rw [fs]; exact h.inv, by rw [fs]; exact h.rq⟩
      intro t ht'
      rcases List.mem_cons.mp ht' with rfl | h'
      · rw [km]; rfl
      · exact h.frag t h'
    refine wp_bind (h2.setF (Y' := Y) (q' := q) ?_ h.frag ?_ h2.rq ?_)
    · unfold File.toks
      rw [List.perm_iff_count]
      intro a
      simp only [List.count_append, List.flatMap_append, List.flatMap_cons, List.flatMap_nil, List.count_cons, List.count_nil]
      omega
    · refine ⟨h2.inv.wq, ?_, h2.inv.idx, ?_, h2.inv.kinds.1, h2.inv.kinds.2.1, ?_, h2.inv.kinds.2.2.2⟩
      · intro y hy
        rcases List.mem_append.mp hy with hy | hy
        · exact h2.inv.mq y hy
        · rw [List.mem_singleton] at hy
          rw [hy]
          refine ⟨by simp only []; rw [km]; rfl, by simp⟩
      · rw [List.map_append]
        refine List.nodup_append.mpr ⟨h2.inv.dids, by simp, ?_⟩
        rintro d hd d' hd' rfl
        simp only [List.map_cons, List.map_nil, List.mem_singleton] at hd'
        subst hd'
        obtain ⟨y, hy, hyd⟩ := List.mem_map.mp hd
        rw [fs] at hy
        exact ha (List.any_eq_true.mpr ⟨y, hy, by simpa using hyd⟩)
      · intro y hy
        rcases List.mem_append.mp hy with hy | hy
        · exact h2.inv.kinds.2.2.1 y hy
        · rw [List.mem_singleton] at hy
          rw [hy]
          exact Or.inr km
    · intro s3 hf3 h3
      refine tail s3 h3 ?_ ?_
      · rw [hf3]
        exact ⟨⟨did, 0, ⟨m, []⟩⟩, by simp, rfl⟩
      · rw [hf3]
        simp only []
        rw [fs]
        refine ⟨rfl, rfl, rfl, rfl, rfl, ?_⟩
        intro hpos y hy hyd
        rcases List.mem_append.mp hy with hy | hy
        · exact hpos y hy
        · rw [List.mem_singleton] at hy
          rw [hy] at hyd
          exact absurd rfl hyd

theorem dsetiWrite_fn (c : Conf) (p : WArgs) : Fn (dsetiWrite c p) fun f _ f' L => L = writeLoss c p ∧ Kept f f' := by
  unfold dsetiWrite
  refine Fn.frame ?_
  intro s X h0
  have c1 : chk finD [.call] [] [([], [])] = true := by decide
  have c2 : chk finD [.call, .acq .lib, .call] [] [([.lib], [])] = true := by decide
  refine wp_bind (h0.run c1 (fun _ h => h) ?_)
  intro e' he s1 Z hf1 hZ h1
  simp only [List.mem_singleton] at he
  subst he
  simp only [List.map_eq_nil_iff] at hZ
  subst hZ
  simp only [List.nil_append] at h1
  by_cases hem : p.empty = true
  · simp only [if_pos hem]
    refine wp_pure ⟨_, _, h1, by decide, ?_, ?_⟩
    · unfold writeLoss
      rw [hem]
      rfl
    · rw [hf1]
      exact ⟨rfl, rfl, rfl, rfl, rfl, fun h => h⟩
  simp only [if_neg hem]
  refine wp_bind (h1.run c2 (fun _ h => h) ?_)
  intro e' he s2 Z hf2 hZ h2
  simp only [List.mem_singleton] at he
  subst he
  simp only [List.map_eq_nil_iff] at hZ
  subst hZ
  simp only [List.nil_append] at h2
  have fs2 : s2.file = s.file := by rw [hf2, hf1]
  -- the request
  have build : wp (buildReq c p) s2 fun o s' => match o with
      | .ub => False
      | .thrown => Bad finD s.file.rq X s'
      | .ok _ => In s.file.rq X ((if c.req then [.wreq] else []) ++ [.lib]) [] s' ∧ Kept s.file s'.file := by
    unfold buildReq
    have k0 : Kept s.file s2.file := by rw [fs2]; exact ⟨rfl, rfl, rfl, rfl, rfl, fun h => h⟩
    by_cases hr : c.req = true
    · rw [if_pos hr, if_pos hr]
      have c3 : chk finD [.acq .wreq] [.lib] [([.wreq, .lib], [])] = true := by decide
      have c4 : chk finD [.mal .key] [.wreq, .lib] [([.key, .wreq, .lib], [])] = true := by decide
      have c5 : chk finD [.call] [.wreq, .lib] [([.wreq, .lib], [])] = true := by decide
      have tail : ∀ s', In s.file.rq X [.wreq, .lib] [] s' → Kept s.file s'.file → wp (run [.call]) s' fun o s' => match o with
          | .ub => False
          | .thrown => Bad finD s.file.rq X s'
          | .ok _ => In s.file.rq X ([.wreq] ++ [.lib]) [] s' ∧ Kept s.file s'.file := by
        intro s' h' k'
        refine h'.run c5 (fun _ h => h) ?_
        intro e' he s4 Z hf4 hZ h4
        simp only [List.mem_singleton] at he
        subst he
        simp only [List.map_eq_nil_iff] at hZ
        subst hZ
        exact ⟨h4, hf4 ▸ k'⟩
      refine wp_bind (h2.run c3 (fun _ h => h) ?_)
      intro e' he s3 Z hf3 hZ h3
      simp only [List.mem_singleton] at he
      subst he
      simp only [List.map_eq_nil_iff] at hZ
      subst hZ
      simp only [List.nil_append] at h3
      simp only []
      by_cases hk : p.key = true
      · rw [if_pos hk]
        refine wp_bind (h3.run c4 (fun _ h => h) ?_)
        intro e' he s4 Z hf4 hZ h4
        simp only [List.mem_singleton] at he
        subst he
        simp only [List.map_eq_nil_iff] at hZ
        subst hZ
        simp only [List.nil_append] at h4
        refine wp_bind (wp_move h4.at_ (by decide) ?_)
        intro t s5 kt f5 a5
        have e5 : ([Kind.key, .wreq, .lib] : List Kind).erase .key = [.wreq, .lib] := by decide
        rw [e5] at a5
        refine wp_bind (wp_setF ?_)
        refine wp_mono (tail _ ?_ ?_) (fun o s' h => by cases o <;> exact h)
        · refine ⟨⟨?_, a5.2⟩, frag_nil, ?_, ?_⟩
          · have hp := a5.1
            unfold Good File.toks at hp ⊢
            permc hp
          · rw [f5]
            refine ⟨h4.inv.wq, h4.inv.mq, h4.inv.idx, h4.inv.dids, h4.inv.kinds.1, h4.inv.kinds.2.1, h4.inv.kinds.2.2.1, ?_⟩
            intro x hx
            rcases List.mem_append.mp hx with hx | hx
            · exact h4.inv.kinds.2.2.2 x hx
            · rw [List.mem_singleton] at hx
              rw [hx]; exact kt
          · rw [f5]
            exact h4.rq
        · have : s5.file = s2.file := by rw [f5, hf4, hf3]
          simp only []
          rw [this]
          exact k0
      · rw [if_neg hk]
        refine wp_mono (tail _ h3 ?_) (fun o s' h => by cases o <;> exact h)
        rw [hf3]; exact k0
    · rw [if_neg hr, if_neg hr]
      exact wp_pure ⟨h2, k0⟩
  refine wp_bind (wp_mono build ?_)
  intro o s3 ho
  cases o with
  | ub => exact ho.elim
  | thrown => exact ho
  | ok _ =>
  obtain ⟨h3, k3⟩ := ho
  have c6 : ∀ req own pack bg filter : Bool, chk finD (.call :: ((if own then .acq .xbuf :: ((if pack then [.acq .ptype] else []) ++ (if bg then [.mal .bg, .rel .bg] else [])) else []) ++
    (if filter then .acq .fbuf :: ((if own then [.rel .xbuf] else []) ++ [.acq .xbuf, .rel .fbuf]) else []))) ((if req then [.wreq] else []) ++ [.lib])
      [(kW req own pack filter, [])] = true := by decide
  refine wp_bind (h3.run (c6 c.req p.own p.pack p.bg p.filter) (fun _ h => h) ?_)
  intro e' he s4 Z hf4 hZ h4
  simp only [List.mem_singleton] at he
  subst he
  simp only [List.map_eq_nil_iff] at hZ
  subst hZ
  simp only [List.nil_append] at h4
  simp only []
  by_cases hm : c.merge = true
  · rw [if_pos hm]
    refine append_wp h4 (fun _ h => h) ?_
    intro s5 k5 h5
    have c7 : ∀ req own pack filter : Bool, left finD ((kW req own pack filter).erase .xbuf) = if req then [.wreq] else [] := by decide
    have e7 := c7 c.req p.own p.pack p.filter
    unfold finD at e7
    refine ⟨_, _, h5, ?_, ?_, ?_⟩
    · rw [e7]
      split <;> decide
    · rw [e7]
      unfold writeLoss
      simp only [Bool.not_eq_true] at hem
      rw [hem, hm]
      simp
    · rw [hf4] at k5
      obtain ⟨a1, a2, a3, a4, a5, a6⟩ := k3
      obtain ⟨b1, b2, b3, b4, b5, b6⟩ := k5
      exact ⟨b1.trans a1, b2.trans a2, b3.trans a3, b4.trans a4, b5.trans a5, fun h => b6 (a6 h)⟩
  · rw [if_neg hm]
    have hr : c.req = true := by
      unfold Conf.req
      simp only [Bool.not_eq_true] at hm
      rw [hm]; rfl
    rw [hr] at h4
    have c7 : ∀ own pack filter : Bool, .wreq ∈ kW true own pack filter ∧
      left finD (((kW true own pack filter).erase .wreq).erase .xbuf) = [] := by decide
    have e7 := c7 p.own p.pack p.filter
    unfold finD at e7
    unfold enqueue
    refine wp_bind (wp_move h4.at_ e7.1 ?_)
    intro r s5 kr f5 a5
    refine wp_bind (wp_moveIf a5 ?_)
    intro x s6 kx ix f6 a6
    refine wp_setF ?_
    have fs6 : s6.file = s4.file := by rw [f6, f5]
    refine ⟨[], ((kW true p.own p.pack p.filter).erase .wreq).erase .xbuf, ⟨⟨?_, a6.2⟩, frag_nil, ?_, ?_⟩, ?_, ?_, ?_⟩
    · have hp := a6.1
      unfold Good File.toks at hp ⊢
      rw [List.perm_iff_count] at hp ⊢
      intro a
      have := hp a
      simp only [List.count_append, List.flatMap_append, List.flatMap_cons, List.flatMap_nil, List.count_cons, List.count_nil] at this ⊢
      omega
    · rw [fs6]
      refine ⟨?_, h4.inv.mq, h4.inv.idx, h4.inv.dids, ?_, h4.inv.kinds.2⟩
      · intro w hw b hb
        rcases List.mem_append.mp hw with hw | hw
        · exact h4.inv.wq w hw b hb
        · rw [List.mem_singleton] at hw
          rw [hw] at hb
          simp only [Option.mem_toList] at hb
          exact kx b hb
      · intro w hw
        rcases List.mem_append.mp hw with hw | hw
        · exact h4.inv.kinds.1 w hw
        · rw [List.mem_singleton] at hw
          rw [hw]
          exact Or.inl kr
    · rw [fs6]
      exact h4.rq
    · rw [e7.2]; rfl
    · rw [e7.2]
      unfold writeLoss
      simp only [Bool.not_eq_true] at hm
      rw [hm]
      simp
    · have : s6.file = s3.file := by rw [fs6, hf4]
      simp only []
      rw [this]
      exact k3

end Verif.Held
