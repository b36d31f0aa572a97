import Verif.Lemmas.CollSees

/-
The programs of the close, the file flush and the read, run by all processes.
-/

namespace Verif

variable {n : Net} {α : Type}

/-! ### Which groups have metadata -/

theorem metaSize_pos (w : WReq) : 0 < w.metaSize := by
  unfold WReq.metaSize WReq.selOff hdrSize
  omega

theorem mapIdx_sum_first (h : Nat) : ∀ (l : List Rank) (f : Rank → Nat), l ≠ [] →
    (l.mapIdx (fun i k => (if i = 0 then h else 0) + f k)).sum = h + (l.map f).sum := by
  intro l f hl
  cases l with
  | nil => exact absurd rfl hl
  | cons k l =>
    have : ∀ l : List Rank, (l.mapIdx (fun i k => (if i + 1 = 0 then h else 0) + f k)) = l.map f := by
      intro l
      refine List.ext_getElem (by simp) (fun i h1 h2 => ?_)
      simp
    rw [List.mapIdx_cons, this]
    simp [Nat.add_assoc]

/-- A group has metadata to write if one of its processes has a request. -/
theorem hasMeta_iff {p : Nat → Proc} {c : Comm} (hc : n.mem c ≠ []) :
    n.hasMeta p c = true ↔ ∃ r ∈ n.mem c, (p r).k.wreqs ≠ [] := by
  have hne : n.ranks p c ≠ [] := by simpa [Net.ranks] using hc
  have hlen : (n.ranks p c).length = n.len c := by simp [Net.ranks, Net.len]
  have e : (mdSizes (n.ranks p c)).sum = 8 * (n.len c + 1) + ((n.ranks p c).map (fun k => (k.wreqs.map WReq.metaSize).sum)).sum := by
    rw [mdSizes, mapIdx_sum_first _ _ (fun k : Rank => (k.wreqs.map WReq.metaSize).sum) hne, hlen]
  rw [Net.hasMeta, decide_eq_true_iff, e]
  have h1 : (8 * (n.len c + 1) < 8 * (n.len c + 1) + ((n.ranks p c).map (fun k => (k.wreqs.map WReq.metaSize).sum)).sum) ↔
      ((n.ranks p c).map (fun k => (k.wreqs.map WReq.metaSize).sum)).sum ≠ 0 := by omega
  rw [h1]
  constructor
  · intro h
    refine Decidable.byContradiction (fun hx => h (List.sum_eq_zero_iff_forall_eq_nat.mpr (fun x hm => ?_)))
    obtain ⟨k, hk, rfl⟩ := List.mem_map.mp hm
    obtain ⟨r, hr, rfl⟩ := List.mem_map.mp hk
    have : (p r).k.wreqs = [] := Decidable.byContradiction (fun hz => hx ⟨r, hr, hz⟩)
    rw [this]
    rfl
  · rintro ⟨r, hr, hz⟩ h
    have h2 := (List.sum_eq_zero_iff_forall_eq_nat.mp h) _
      (List.mem_map.mpr ⟨(p r).k, List.mem_map.mpr ⟨r, hr, rfl⟩, rfl⟩)
    obtain ⟨w, l, hw⟩ := List.exists_cons_of_ne_nil hz
    rw [hw, List.map_cons, List.sum_cons] at h2
    have := metaSize_pos w
    omega

theorem localOffs_nil {l : List WReq} {a : Nat} : localOffs a l = [] ↔ l = [] := by
  cases l <;> simp [localOffs]

theorem setLocal_wreqs {k : Rank} : k.setLocal.wreqs = [] ↔ k.wreqs = [] := by
  have : k.setLocal.wreqs = k.wreqs.take k.nflushed ++ localOffs 0 k.pending := rfl
  rw [this, List.append_eq_nil_iff, localOffs_nil, ← List.append_eq_nil_iff, Rank.pending, List.take_append_drop]

theorem flushAt_wreqs {k : Rank} {off : Nat} : (k.flushAt off).wreqs = [] ↔ k.wreqs = [] := by
  have : (k.flushAt off).wreqs = k.wreqs.take k.nflushed ++ (localOffs 0 k.pending).map (fun r => { r with foff := r.foff + off }) := rfl
  rw [this, List.append_eq_nil_iff, List.map_eq_nil_iff, localOffs_nil, ← List.append_eq_nil_iff, Rank.pending, List.take_append_drop]

theorem flushed_wreqs {p : Nat → Proc} {W : Comm → Store} {r : Nat} : (flushed n p W r).k.wreqs = [] ↔ (p r).k.wreqs = [] := by
  unfold flushed
  split
  · split
    · exact flushAt_wreqs
    · exact setLocal_wreqs
  · exact setLocal_wreqs

theorem flushed_hasMeta {p : Nat → Proc} {W : Comm → Store} {c : Comm} (hc : n.mem c ≠ []) :
    n.hasMeta (flushed n p W) c = n.hasMeta p c := by
  rw [Bool.eq_iff_iff, hasMeta_iff hc, hasMeta_iff hc]
  simp only [ne_eq, flushed_wreqs]

/-! ### Metadata flush -/

/-- All groups have metadata, or none: the metadata flush goes through the barrier. -/
theorem meta_even {φ : Sys α → Prop} (hφ : Resp n φ) {sub : Bool} (hok : n.ok sub) (p : Nat → Proc) (W : Comm → Store)
    (K : Nat → Proc → Prog α) {b : Bool} (hb : ∀ r < n.np, n.hasMeta p (n.gc r) = b)
    (h : Goes n φ (fun r => K r (metaed n p r)) (metaedW n p W)) :
    Goes n φ (fun r => (metaP (n.gc r) (n.pos r) (n.len (n.gc r)) (p r)).bind (K r)) W := by
  refine meta_goes hφ hok p W K ?_
  cases b with
  | true =>
    refine Goes.world hφ hok.1 (k := .barrier) (args := fun _ => {}) (next := fun r _ => K r (metaed n p r)) (fun r hr => ?_) ?_
    · rw [if_pos (hb r hr)]
      rfl
    · rw [world_pure (fun _ _ => rfl)]
      exact h
  | false =>
    refine h.congr hφ (fun r hr => ?_)
    rw [if_neg (by rw [hb r hr]; exact Bool.false_ne_true)]

/-! ### Close -/

/-- Files after the attribute with the number of metadata datasets is written. -/
def attrW (n : Net) (p : Nat → Proc) (W : Comm → Store) : Comm → Store :=
  n.put .putAttr (fun _ => true) (fun r => { nums := [(p r).nmd] }) W

/-- Part of `closeP` after the metadata flush. -/
def lastP (sub : Bool) (g : Comm) (p : Proc) : Prog Proc :=
  .tell g .putAttr { nums := [p.nmd] } <|
  (if sub then Prog.tell .world .putAttr { nums := [0] } else id) <|
  .tell g .closeF {} <|
  .ret p

/-- Files after a close. -/
def closedW (n : Net) (sub : Bool) (p : Nat → Proc) (W : Comm → Store) (c : Comm) : Store :=
  if sub = true ∧ c = .world then { attrW n p W .world with saved := 0 } else attrW n p W c

theorem last_ends {sub : Bool} (hok : n.ok sub) (p : Nat → Proc) (W : Comm → Store) :
    Ends n (fun r => lastP sub (n.gc r) (p r)) W p (closedW n sub p W) := by
  refine Goes.groups (resp_ends _ _) hok (fun _ => true) (k := .putAttr) (args := fun r => { nums := [(p r).nmd] })
    (next := fun r _ => (if sub then Prog.tell .world .putAttr { nums := [0] } else id) (.tell (n.gc r) .closeF {} (.ret (p r))))
    (fun r hr _ => rfl) (fun r hr => rfl) ?_
  have fin : ∀ W', Ends n (fun r => .tell (n.gc r) .closeF {} (.ret (p r))) W' p W' := by
    intro W'
    refine Goes.groups (resp_ends _ _) hok (fun _ => true) (k := .closeF) (args := fun r => {})
      (next := fun r _ => .ret (p r)) (fun r hr _ => rfl) (fun r hr => rfl) ?_
    rw [put_pure (fun _ _ => rfl)]
    exact ends_ret _ _
  cases sub with
  | false =>
    have : closedW n false p W = attrW n p W := by
      funext c
      simp [closedW]
    rw [this]
    exact fin _
  | true =>
    refine Goes.world (resp_ends _ _) hok.1 (k := .putAttr) (args := fun _ => { nums := [0] })
      (next := fun r _ => .tell (n.gc r) .closeF {} (.ret (p r))) (fun r hr => rfl) ?_
    have e : (fun c => if c = .world then (perform .putAttr ((List.range n.np).map (fun _ => CArg.mk [0] []))
        (n.put .putAttr (fun _ => true) (fun r => { nums := [(p r).nmd] }) W .world)).1
        else n.put .putAttr (fun _ => true) (fun r => { nums := [(p r).nmd] }) W c) = closedW n true p W := by
      funext c
      simp only [closedW, true_and, attrW]
      by_cases h : c = .world
      · rw [if_pos h, if_pos h]
        simp only [perform]
        have : ((List.range n.np).map (fun _ => CArg.mk [0] [])).getD 0 {} = CArg.mk [0] [] := by
          have h0 := hok.1
          rw [List.getD_eq_getElem?_getD, List.getElem?_map, List.getElem?_range h0]
          rfl
        rw [this]
        rfl
      · rw [if_neg h, if_neg h]
    rw [e]
    exact fin _

theorem stuck_world {P : Nat → Prog α} {W : Comm → Store} {r1 r2 : Nat} {k1 : CKind} (h1 : r1 < n.np) (h2 : r2 < n.np)
    (hall : ∀ r < n.np, (∃ a, P r = .ret a) ∨ ∃ k, (P r).at .world k) (ha : (P r1).at .world k1) (hb : ¬ (P r2).at .world k1) :
    (Sys.mk P W).stuck n := by
  constructor
  · intro hd
    obtain ⟨a, hx⟩ := hd r1 h1
    change P r1 = _ at hx
    rw [hx] at ha
    exact ha
  · rintro ⟨u, c, k, hr, -⟩
    obtain ⟨r, hm⟩ := List.exists_mem_of_ne_nil _ hr.1
    have hat : (P r).at c k := hr.2 r hm
    have hc : c = .world := by
      rcases hall r (mem_lt hm) with ⟨a, hx⟩ | ⟨k', hk'⟩
      · rw [hx] at hat
        exact hat.elim
      · exact (Prog.at_inj hat hk').1
    subst hc
    have hk : k = k1 := (Prog.at_inj (hr.2 r1 (List.mem_range.mpr h1)) ha).2
    exact hb (hk ▸ hr.2 r2 (List.mem_range.mpr h2))

/-- State of the processes after a close. -/
def closed (n : Net) (p : Nat → Proc) (W : Comm → Store) : Nat → Proc := metaed n (flushed n p W)

/-- State of the files after a close, but for the attributes. -/
def closedF (n : Net) (p : Nat → Proc) (W : Comm → Store) : Comm → Store := metaedW n (flushed n p W) (flushedW n p W)

theorem close_ends {sub : Bool} (hok : n.ok sub) (p : Nat → Proc) (W : Comm → Store) {b : Bool}
    (hb : ∀ r < n.np, n.hasMeta p (n.gc r) = b) :
    Ends n (fun r => closeP sub (n.gc r) (n.pos r) (n.len (n.gc r)) (p r)) W (closed n p W)
      (closedW n sub (closed n p W) (closedF n p W)) := by
  refine Goes.bind (resp_ends _ _) (F := fun r p => (metaP (n.gc r) (n.pos r) (n.len (n.gc r)) p).bind (lastP sub (n.gc r)))
    (flush_ends hok p W) ?_
  refine meta_even (resp_ends _ _) hok _ _ (fun r => lastP sub (n.gc r)) (b := b) (fun r hr => ?_) (last_ends hok _ _)
  rw [flushed_hasMeta (mem_comms_ne hok (mem_comms.mpr ⟨r, hr, rfl⟩))]
  exact hb r hr

theorem close_stuck {sub : Bool} (hok : n.ok sub) (p : Nat → Proc) (W : Comm → Store) {r1 r2 : Nat} (h1 : r1 < n.np) (h2 : r2 < n.np)
    (hm1 : n.hasMeta p (n.gc r1) = true) (hm2 : n.hasMeta p (n.gc r2) = false) :
    Goes n (Sys.stuck n) (fun r => closeP sub (n.gc r) (n.pos r) (n.len (n.gc r)) (p r)) W := by
  have hsub : sub = true := by
    cases sub with
    | true => rfl
    | false =>
      rw [(hok.2 r1 h1).mpr rfl] at hm1
      rw [(hok.2 r2 h2).mpr rfl, hm1] at hm2
      cases hm2
  subst hsub
  refine Goes.bind resp_stuck (F := fun r p => (metaP (n.gc r) (n.pos r) (n.len (n.gc r)) p).bind (lastP true (n.gc r)))
    (flush_ends hok p W) ?_
  let q := flushed n p W
  have hq : ∀ r < n.np, n.hasMeta q (n.gc r) = n.hasMeta p (n.gc r) := fun r hr =>
    flushed_hasMeta (mem_comms_ne hok (mem_comms.mpr ⟨r, hr, rfl⟩))
  refine meta_goes resp_stuck hok q _ (fun r => lastP true (n.gc r)) ?_
  refine Goes.groups resp_stuck hok (fun c => !(n.hasMeta q c)) (k := .putAttr) (args := fun r => { nums := [(metaed n q r).nmd] })
    (next := fun r _ => Prog.tell .world .putAttr { nums := [0] } (.tell (n.gc r) .closeF {} (.ret (metaed n q r))))
    (Q := fun r => if n.hasMeta q (n.gc r) then .tell .world .barrier {} (lastP true (n.gc r) (metaed n q r)) else
      Prog.tell .world .putAttr { nums := [0] } (.tell (n.gc r) .closeF {} (.ret (metaed n q r)))) ?_ ?_ ?_
  · intro r hr hx
    rw [if_neg (by simpa using hx)]
    rfl
  · intro r hr
    cases hx : n.hasMeta q (n.gc r) <;> rfl
  · refine Goes.here (stuck_world (k1 := .barrier) h1 h2 (fun r hr => .inr ?_) ?_ ?_)
    · cases hx : n.hasMeta q (n.gc r)
      · exact ⟨.putAttr, rfl, rfl⟩
      · exact ⟨.barrier, rfl, rfl⟩
    · rw [if_pos ((hq r1 h1).trans hm1)]
      exact ⟨rfl, rfl⟩
    · rw [if_neg (by rw [hq r2 h2, hm2]; exact Bool.false_ne_true)]
      rintro ⟨-, hx⟩
      cases hx

/-! ### File flush -/

/-- Some process has requests that are not flushed. -/
def Net.pend (n : Net) (p : Nat → Proc) : Bool := (List.range n.np).any (fun r => decide ((p r).k.pending ≠ []))

theorem foldr_max_pos (l : List Nat) : 0 < l.foldr Nat.max 0 ↔ ∃ x ∈ l, 0 < x := by
  induction l with
  | nil => simp
  | cons a l ih =>
    have : 0 < Nat.max a (l.foldr Nat.max 0) ↔ 0 < a ∨ 0 < l.foldr Nat.max 0 := by
      show 0 < max a _ ↔ _
      omega
    simp only [List.foldr_cons, this, ih, List.mem_cons, exists_eq_or_imp]

theorem max_pend {p : Nat → Proc} {w : Store} (i : Nat) :
    0 < numAt ((perform .max ((List.range n.np).map (fun r => CArg.mk [(p r).k.pending.length, 0] [])) w).2 i) 0 ↔
      n.pend p = true := by
  have : numAt ((perform .max ((List.range n.np).map (fun r => CArg.mk [(p r).k.pending.length, 0] [])) w).2 i) 0 =
      (((List.range n.np).map (fun r => CArg.mk [(p r).k.pending.length, 0] [])).map (CArg.num 0)).foldr Nat.max 0 := rfl
  rw [this, foldr_max_pos]
  simp only [Net.pend, List.map_map, List.mem_map, List.any_eq_true, decide_eq_true_eq]
  constructor
  · rintro ⟨x, ⟨r, hr, rfl⟩, hx⟩
    exact ⟨r, hr, fun h => by simp [Function.comp, CArg.num, h] at hx⟩
  · rintro ⟨r, hr, hx⟩
    exact ⟨_, ⟨r, hr, rfl⟩, List.length_pos_of_ne_nil hx⟩

/-- Flush if some process has something to flush. -/
theorem max_goes {φ : Sys α → Prop} (hφ : Resp n φ) {sub : Bool} (hok : n.ok sub) (p : Nat → Proc) (W : Comm → Store)
    (K : Nat → Proc → Prog α)
    (h : Goes n φ (fun r => K r (if n.pend p then flushed n p W r else p r)) (if n.pend p then flushedW n p W else W)) :
    Goes n φ (fun r => (fileFlushP sub (n.gc r) (p r)).bind (K r)) W := by
  refine Goes.world hφ hok.1 (k := .max) (args := fun r => { nums := [(p r).k.pending.length, 0] }) (fun r _ => rfl) ?_
  rw [world_pure (fun _ _ => rfl)]
  cases hp : n.pend p with
  | true =>
    rw [hp] at h
    refine Goes.congr hφ (Goes.bind hφ (F := K) (flush_ends hok p W) h) (fun r hr => ?_)
    have := (max_pend (w := W .world) r).mpr hp
    simp only [if_pos this]
  | false =>
    rw [hp] at h
    refine Goes.congr hφ h (fun r hr => ?_)
    have : ¬ _ := fun x => Bool.false_ne_true (hp.symm.trans ((max_pend (w := W .world) r).mp x))
    simp only [if_neg this, Bool.false_eq_true, if_false, Prog.bind]

/-! ### Read -/

/-- Processes before the read proper. -/
def prepP (n : Net) (coll d : Bool) (p : Nat → Proc) (W : Comm → Store) : (Nat → Proc) × (Comm → Store) :=
  let fl := (coll || decide (n.np = 1)) && n.pend p
  let s1 := if fl then (flushed n p W, flushedW n p W) else (p, W)
  if d || (fl && decide (n.total p .world ≠ 0)) then (metaed n s1.1, metaedW n s1.1 s1.2) else s1

/-- Part of `readP` before the read proper. -/
def beforeP (o : COpt) (g : Comm) (i n np : Nat) (p : Proc) : Prog Proc :=
  (if o.coll || decide (np = 1) then fileFlushP o.sub g p else .ret p : Prog Proc).bind fun p =>
  if p.dirty then metaP g i n p else .ret p

theorem bind_assoc' {β γ : Type} (p : Prog α) (f : α → Prog β) (g : β → Prog γ) :
    (p.bind f).bind g = p.bind (fun a => (f a).bind g) := by
  induction p with
  | ret a => rfl
  | call c k a nx ih =>
    simp only [Prog.bind]
    congr 1
    funext x
    exact ih x

theorem readP_some (o : COpt) (g : Comm) (i n np : Nat) (hit : Bool) (p : Proc) :
    readP o g i n np (some hit) p = (beforeP o g i n np p).bind (fetchP o.pass hit g) := by
  rw [beforeP, bind_assoc']
  rfl

theorem flushed_dirty {p : Nat → Proc} {W : Comm → Store} {r : Nat} :
    (flushed n p W r).dirty = ((p r).dirty || decide (n.total p .world ≠ 0)) := by
  unfold flushed
  by_cases h : n.total p .world ≠ 0
  · rw [if_pos h, decide_eq_true h, Bool.or_true]
    split <;> rfl
  · rw [if_neg h, decide_eq_false h, Bool.or_false]

theorem meta_if {φ : Sys α → Prop} (hφ : Resp n φ) (hok : n.ok false) (p : Nat → Proc) (W : Comm → Store)
    (K : Nat → Proc → Prog α) {d : Bool} (hd : ∀ r < n.np, (p r).dirty = d)
    (h : Goes n φ (fun r => K r (if d then metaed n p r else p r)) (if d then metaedW n p W else W)) :
    Goes n φ (fun r => (if (p r).dirty then metaP (n.gc r) (n.pos r) (n.len (n.gc r)) (p r) else .ret (p r) : Prog Proc).bind (K r)) W := by
  cases d with
  | true =>
    refine Goes.congr hφ (meta_even hφ hok p W K (b := n.hasMeta p .world) (fun r hr => ?_) h) (fun r hr => ?_)
    · rw [(hok.2 r hr).mpr rfl]
    · rw [if_pos (hd r hr)]
  | false =>
    refine Goes.congr hφ h (fun r hr => ?_)
    simp only [hd r hr, Bool.false_eq_true, if_false, Prog.bind]

/-- All processes get to the read proper. -/
theorem before_goes {φ : Sys α → Prop} (hφ : Resp n φ) {o : COpt} (ho : o.sub = false) (hok : n.ok false) (p : Nat → Proc)
    (W : Comm → Store) (K : Nat → Proc → Prog α) {d : Bool} (hd : ∀ r < n.np, (p r).dirty = d)
    (h : Goes n φ (fun r => K r ((prepP n o.coll d p W).1 r)) (prepP n o.coll d p W).2) :
    Goes n φ (fun r => (beforeP o (n.gc r) (n.pos r) (n.len (n.gc r)) n.np (p r)).bind (K r)) W := by
  have e : (fun r => (beforeP o (n.gc r) (n.pos r) (n.len (n.gc r)) n.np (p r)).bind (K r)) =
      (fun r => (if o.coll || decide (n.np = 1) then fileFlushP o.sub (n.gc r) (p r) else .ret (p r) : Prog Proc).bind fun p =>
        (if p.dirty then metaP (n.gc r) (n.pos r) (n.len (n.gc r)) p else .ret p : Prog Proc).bind (K r)) := by
    funext r
    rw [beforeP, bind_assoc']
  rw [e]
  unfold prepP at h
  cases hc : (o.coll || decide (n.np = 1)) with
  | true =>
    rw [hc] at h
    simp only [if_true, ho]
    refine max_goes hφ hok p W (fun r p => (if p.dirty then metaP (n.gc r) (n.pos r) (n.len (n.gc r)) p else .ret p : Prog Proc).bind (K r)) ?_
    cases hp : n.pend p with
    | true =>
      rw [hp] at h
      simp only [Bool.and_self, if_true, Bool.true_and] at h
      simp only [if_true]
      refine meta_if hφ hok _ _ K (d := (d || decide (n.total p .world ≠ 0))) (fun r hr => ?_) ?_
      · rw [flushed_dirty, hd r hr]
      · cases hx : (d || decide (n.total p .world ≠ 0)) <;> rw [hx] at h <;> exact h
    | false =>
      rw [hp] at h
      simp only [Bool.and_false, Bool.false_eq_true, if_false, Bool.false_and, Bool.or_false] at h
      simp only [Bool.false_eq_true, if_false]
      refine meta_if hφ hok _ _ K hd ?_
      cases d <;> exact h
  | false =>
    rw [hc] at h
    simp only [Bool.false_and, Bool.false_eq_true, if_false, Bool.or_false] at h
    simp only [Bool.false_eq_true, if_false, Prog.bind]
    refine meta_if hφ hok _ _ K hd ?_
    cases d <;> exact h

/-- The read proper, when all processes do the same. -/
theorem fetch_ends (hok : n.ok false) (pass hit : Bool) (p : Nat → Proc) (W : Comm → Store) :
    Ends n (fun r => fetchP pass hit (n.gc r) (p r)) W p W := by
  cases pass with
  | true => exact ends_ret _ _
  | false =>
    cases hit with
    | true =>
      refine Goes.groups (resp_ends _ _) hok (fun _ => true) (k := .setView) (args := fun _ => {})
        (next := fun r _ => .tell (n.gc r) .read {} (.tell (n.gc r) .setView {} (.ret (p r)))) (fun r hr _ => rfl) (fun r hr => rfl) ?_
      rw [put_pure (fun _ _ => rfl)]
      refine Goes.groups (resp_ends _ _) hok (fun _ => true) (k := .read) (args := fun _ => {})
        (next := fun r _ => .tell (n.gc r) .setView {} (.ret (p r))) (fun r hr _ => rfl) (fun r hr => rfl) ?_
      rw [put_pure (fun _ _ => rfl)]
      refine Goes.groups (resp_ends _ _) hok (fun _ => true) (k := .setView) (args := fun _ => {})
        (next := fun r _ => .ret (p r)) (fun r hr _ => rfl) (fun r hr => rfl) ?_
      rw [put_pure (fun _ _ => rfl)]
      exact ends_ret _ _
    | false =>
      refine Goes.groups (resp_ends _ _) hok (fun _ => true) (k := .read) (args := fun _ => {})
        (next := fun r _ => .ret (p r)) (fun r hr _ => rfl) (fun r hr => rfl) ?_
      rw [put_pure (fun _ _ => rfl)]
      exact ends_ret _ _

/-- The read of all processes. -/
def readsP (n : Net) (o : COpt) (sel : Nat → Option Bool) (p : Nat → Proc) (r : Nat) : Prog Proc :=
  readP o (n.gc r) (n.pos r) (n.len (n.gc r)) n.np (sel r) (p r)

theorem readsP_some {o : COpt} {sel : Nat → Option Bool} {p : Nat → Proc} {r : Nat} {b : Bool} (h : sel r = some b) :
    readsP n o sel p r = (beforeP o (n.gc r) (n.pos r) (n.len (n.gc r)) n.np (p r)).bind (fetchP o.pass b (n.gc r)) := by
  rw [readsP, h, readP_some]

/-- All processes read something, and all find something in the log or all do not. -/
theorem read_even {o : COpt} (ho : o.sub = false) (hok : n.ok false) {sel : Nat → Option Bool} (p : Nat → Proc) (W : Comm → Store)
    {d : Bool} (hd : ∀ r < n.np, (p r).dirty = d) {b : Bool} (hb : ∀ r < n.np, sel r = some b) :
    Ends n (readsP n o sel p) W (prepP n o.coll d p W).1 (prepP n o.coll d p W).2 := by
  refine Goes.congr (resp_ends _ _) (before_goes (resp_ends _ _) ho hok p W (fun r => fetchP o.pass b (n.gc r)) hd ?_)
    (fun r hr => (readsP_some (hb r hr)).symm)
  exact fetch_ends hok _ _ _ _

/-- All processes read something in passthru mode. -/
theorem read_pass {o : COpt} (ho : o.sub = false) (hpass : o.pass = true) (hok : n.ok false) {sel : Nat → Option Bool} (p : Nat → Proc)
    (W : Comm → Store) {d : Bool} (hd : ∀ r < n.np, (p r).dirty = d) (hb : ∀ r < n.np, sel r ≠ none) :
    Ends n (readsP n o sel p) W (prepP n o.coll d p W).1 (prepP n o.coll d p W).2 := by
  refine Goes.congr (resp_ends _ _) (before_goes (resp_ends _ _) ho hok p W (fun r => fetchP o.pass true (n.gc r)) hd ?_)
    (fun r hr => ?_)
  · exact fetch_ends hok _ _ _ _
  · obtain ⟨b, hx⟩ := Option.ne_none_iff_exists'.mp (hb r hr)
    rw [readsP_some hx, hpass]
    rfl

/-- All processes read something, some find something in the log and some do not. -/
theorem read_stuck {o : COpt} (ho : o.sub = false) (hpass : o.pass = false) (hok : n.ok false) {sel : Nat → Option Bool} (p : Nat → Proc)
    (W : Comm → Store) {d : Bool} (hd : ∀ r < n.np, (p r).dirty = d) (hb : ∀ r < n.np, sel r ≠ none)
    {r1 r2 : Nat} (h1 : r1 < n.np) (h2 : r2 < n.np) (hs1 : sel r1 = some true) (hs2 : sel r2 = some false) :
    Goes n (Sys.stuck n) (readsP n o sel p) W := by
  refine Goes.congr resp_stuck (before_goes resp_stuck ho hok p W (fun r => fetchP o.pass ((sel r).getD false) (n.gc r)) hd ?_)
    (fun r hr => ?_)
  · have hw : ∀ r < n.np, n.gc r = .world := fun r hr => (hok.2 r hr).mpr rfl
    refine Goes.here (stuck_world (k1 := .setView) h1 h2 (fun r hr => .inr ?_) ?_ ?_)
    · obtain ⟨b, hx⟩ := Option.ne_none_iff_exists'.mp (hb r hr)
      rw [hx, hpass, hw r hr]
      cases b
      · exact ⟨.read, rfl, rfl⟩
      · exact ⟨.setView, rfl, rfl⟩
    · rw [hs1, hpass, hw r1 h1]
      exact ⟨rfl, rfl⟩
    · rw [hs2, hpass, hw r2 h2]
      rintro ⟨-, hx⟩
      cases hx
  · obtain ⟨b, hx⟩ := Option.ne_none_iff_exists'.mp (hb r hr)
    rw [readsP_some hx, hx]
    rfl

/-- Some processes have an empty selection and some do not: the others wait for them. -/
theorem read_alone {o : COpt} (hok : n.ok false) {sel : Nat → Option Bool} (p : Nat → Proc)
    (W : Comm → Store) {d : Bool} (hd : ∀ r < n.np, (p r).dirty = d)
    (hx : ¬ (o.pass = true ∧ o.coll = false ∧ n.np ≠ 1 ∧ d = false))
    {r1 r2 : Nat} (h1 : r1 < n.np) (h2 : r2 < n.np) {b : Bool} (hs1 : sel r1 = some b) (hs2 : sel r2 = none) :
    Goes n (Sys.stuck n) (readsP n o sel p) W := by
  have hw : ∀ r < n.np, n.gc r = .world := fun r hr => (hok.2 r hr).mpr rfl
  have hat : ∀ r < n.np, ∀ b, sel r = some b → ∃ k, (readsP n o sel p r).at .world k := by
    intro r hr b hs
    rw [readsP_some hs, beforeP]
    cases hc : (o.coll || decide (n.np = 1)) with
    | true => exact ⟨.max, rfl, rfl⟩
    | false =>
      simp only [Bool.false_eq_true, if_false, Prog.bind, hd r hr]
      cases d with
      | true => exact ⟨.gather, hw r hr, rfl⟩
      | false =>
        simp only [Bool.or_eq_false_iff, decide_eq_false_iff_not] at hc
        have hp : o.pass = false := by
          cases hp : o.pass with
          | false => rfl
          | true => exact absurd ⟨hp, hc.1, hc.2, rfl⟩ hx
        simp only [Bool.false_eq_true, if_false, Prog.bind, fetchP, hp]
        cases b with
        | true => exact ⟨.setView, hw r hr, rfl⟩
        | false => exact ⟨.read, hw r hr, rfl⟩
  obtain ⟨k1, hk1⟩ := hat r1 h1 b hs1
  refine Goes.here (stuck_world (k1 := k1) h1 h2 (fun r hr => ?_) hk1 ?_)
  · cases hs : sel r with
    | none => exact .inl ⟨p r, by rw [readsP, hs]; rfl⟩
    | some b => exact .inr (hat r hr b hs)
  · rw [readsP, hs2]
    exact fun hx => hx

/-- Some processes have an empty selection, and the others make no collective call. -/
theorem read_free {o : COpt} (hpass : o.pass = true) (hc : o.coll = false) (h1 : n.np ≠ 1) {sel : Nat → Option Bool} (p : Nat → Proc)
    (W : Comm → Store) (hd : ∀ r < n.np, (p r).dirty = false) :
    Ends n (readsP n o sel p) W p W := by
  refine Goes.congr (resp_ends _ _) (ends_ret _ _) (fun r hr => ?_)
  cases hs : sel r with
  | none =>
    rw [readsP, hs]
    rfl
  | some b =>
    rw [readsP_some hs, beforeP]
    simp [hc, h1, hd r hr, hpass, Prog.bind, fetchP]

end Verif
